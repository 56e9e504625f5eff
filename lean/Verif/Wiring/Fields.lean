import Verif.Wiring.Model

/-
What each setter of the wiring model changes, field by field.
-/

namespace Verif.Wiring


/-- Unfolds the setters and splits cases. -/
macro "wiring" : tactic => `(tactic| (
  simp only [Heap.setPerf, Heap.setDirMapping, Heap.setDirJp, Heap.updateJpMapping, Heap.setJpMapping, Heap.setJpTrimmer,
    Heap.updateTrimmerMapping, Heap.setLsMapping, Heap.setReg, Heap.ifReg, Heap.setSolver, Heap.alloc, Function.update_self]
  try first
    | (split <;> grind [Function.update_apply])
    | (split <;> (try split) <;> grind [Function.update_apply])
    | grind [Function.update_apply]))

variable (h : Heap)

@[simp] theorem setJpMapping_next (j : Nat) (m : Ref) : (h.setJpMapping j m).next = h.next := by
  wiring
@[simp] theorem setJpMapping_perf (j : Nat) (m : Ref) : (h.setJpMapping j m).perf = h.perf := by
  wiring
@[simp] theorem setJpMapping_dir (j : Nat) (m : Ref) : (h.setJpMapping j m).dir = h.dir := by
  wiring
@[simp] theorem setJpMapping_jp (j : Nat) (m : Ref) (x : Nat) : (h.setJpMapping j m).jp x = if x = j then { h.jp j with mapping := m } else h.jp x := by
  wiring
@[simp] theorem setJpMapping_ls (j : Nat) (m : Ref) : (h.setJpMapping j m).ls = h.ls := by
  wiring
@[simp] theorem setJpMapping_trimmer (j : Nat) (m : Ref) (x : Nat) : (h.setJpMapping j m).trimmer x = if (h.jp j).trimmer = some x then m else h.trimmer x := by
  wiring
@[simp] theorem setJpMapping_reg (j : Nat) (m : Ref) : (h.setJpMapping j m).reg = h.reg := by
  wiring
@[simp] theorem setJpMapping_solver (j : Nat) (m : Ref) : (h.setJpMapping j m).solver = h.solver := by
  wiring
@[simp] theorem setJpMapping_reorder (j : Nat) (m : Ref) : (h.setJpMapping j m).reorder = h.reorder := by
  wiring
@[simp] theorem setJpTrimmer_next (j : Nat) (t : Ref) : (h.setJpTrimmer j t).next = h.next := by
  wiring
@[simp] theorem setJpTrimmer_perf (j : Nat) (t : Ref) : (h.setJpTrimmer j t).perf = h.perf := by
  wiring
@[simp] theorem setJpTrimmer_dir (j : Nat) (t : Ref) : (h.setJpTrimmer j t).dir = h.dir := by
  wiring
@[simp] theorem setJpTrimmer_jp (j : Nat) (t : Ref) (x : Nat) : (h.setJpTrimmer j t).jp x = if x = j then { h.jp j with trimmer := t } else h.jp x := by
  wiring
@[simp] theorem setJpTrimmer_ls (j : Nat) (t : Ref) : (h.setJpTrimmer j t).ls = h.ls := by
  wiring
@[simp] theorem setJpTrimmer_trimmer (j : Nat) (t : Ref) (x : Nat) : (h.setJpTrimmer j t).trimmer x = if t = some x then (h.jp j).mapping else h.trimmer x := by
  wiring
@[simp] theorem setJpTrimmer_reg (j : Nat) (t : Ref) : (h.setJpTrimmer j t).reg = h.reg := by
  wiring
@[simp] theorem setJpTrimmer_solver (j : Nat) (t : Ref) : (h.setJpTrimmer j t).solver = h.solver := by
  wiring
@[simp] theorem setJpTrimmer_reorder (j : Nat) (t : Ref) : (h.setJpTrimmer j t).reorder = h.reorder := by
  wiring
@[simp] theorem setDirMapping_next (d : Nat) (m : Ref) : (h.setDirMapping d m).next = h.next := by
  wiring
@[simp] theorem setDirMapping_perf (d : Nat) (m : Ref) : (h.setDirMapping d m).perf = h.perf := by
  wiring
@[simp] theorem setDirMapping_dir (d : Nat) (m : Ref) (x : Nat) : (h.setDirMapping d m).dir x = if x = d then { h.dir d with mapping := m } else h.dir x := by
  wiring
@[simp] theorem setDirMapping_jp (d : Nat) (m : Ref) (x : Nat) : (h.setDirMapping d m).jp x = if (h.dir d).jp = some x then { h.jp x with mapping := m } else h.jp x := by
  wiring
@[simp] theorem setDirMapping_ls (d : Nat) (m : Ref) : (h.setDirMapping d m).ls = h.ls := by
  wiring
@[simp] theorem setDirMapping_trimmer (d : Nat) (m : Ref) (x : Nat) : (h.setDirMapping d m).trimmer x = if (h.dir d).jp.bind (fun j => (h.jp j).trimmer) = some x then m else h.trimmer x := by
  wiring
@[simp] theorem setDirMapping_reg (d : Nat) (m : Ref) : (h.setDirMapping d m).reg = h.reg := by
  wiring
@[simp] theorem setDirMapping_solver (d : Nat) (m : Ref) : (h.setDirMapping d m).solver = h.solver := by
  wiring
@[simp] theorem setDirMapping_reorder (d : Nat) (m : Ref) : (h.setDirMapping d m).reorder = h.reorder := by
  wiring
@[simp] theorem setDirJp_next (d : Nat) (j : Ref) : (h.setDirJp d j).next = h.next := by
  wiring
@[simp] theorem setDirJp_perf (d : Nat) (j : Ref) : (h.setDirJp d j).perf = h.perf := by
  wiring
@[simp] theorem setDirJp_dir (d : Nat) (j : Ref) (x : Nat) : (h.setDirJp d j).dir x = if x = d then { h.dir d with jp := j } else h.dir x := by
  wiring
@[simp] theorem setDirJp_jp (d : Nat) (j : Ref) (x : Nat) : (h.setDirJp d j).jp x = if j = some x then { h.jp x with mapping := (h.dir d).mapping } else h.jp x := by
  wiring
@[simp] theorem setDirJp_ls (d : Nat) (j : Ref) : (h.setDirJp d j).ls = h.ls := by
  wiring
@[simp] theorem setDirJp_trimmer (d : Nat) (j : Ref) (x : Nat) : (h.setDirJp d j).trimmer x = if j.bind (fun j => (h.jp j).trimmer) = some x then (h.dir d).mapping else h.trimmer x := by
  wiring
@[simp] theorem setDirJp_reg (d : Nat) (j : Ref) : (h.setDirJp d j).reg = h.reg := by
  wiring
@[simp] theorem setDirJp_solver (d : Nat) (j : Ref) : (h.setDirJp d j).solver = h.solver := by
  wiring
@[simp] theorem setDirJp_reorder (d : Nat) (j : Ref) : (h.setDirJp d j).reorder = h.reorder := by
  wiring
@[simp] theorem setPerf_next (p : Nat) (f : Perf → Perf) : (h.setPerf p f).next = h.next := by
  wiring
@[simp] theorem setPerf_perf (p : Nat) (f : Perf → Perf) (x : Nat) : (h.setPerf p f).perf x = if x = p then f (h.perf p) else h.perf x := by
  wiring
@[simp] theorem setPerf_dir (p : Nat) (f : Perf → Perf) : (h.setPerf p f).dir = h.dir := by
  wiring
@[simp] theorem setPerf_jp (p : Nat) (f : Perf → Perf) : (h.setPerf p f).jp = h.jp := by
  wiring
@[simp] theorem setPerf_ls (p : Nat) (f : Perf → Perf) : (h.setPerf p f).ls = h.ls := by
  wiring
@[simp] theorem setPerf_trimmer (p : Nat) (f : Perf → Perf) : (h.setPerf p f).trimmer = h.trimmer := by
  wiring
@[simp] theorem setPerf_reg (p : Nat) (f : Perf → Perf) : (h.setPerf p f).reg = h.reg := by
  wiring
@[simp] theorem setPerf_solver (p : Nat) (f : Perf → Perf) : (h.setPerf p f).solver = h.solver := by
  wiring
@[simp] theorem setPerf_reorder (p : Nat) (f : Perf → Perf) : (h.setPerf p f).reorder = h.reorder := by
  wiring
@[simp] theorem setLsMapping_next (l : Nat) (m : Ref) : (h.setLsMapping l m).next = h.next := by
  wiring
@[simp] theorem setLsMapping_perf (l : Nat) (m : Ref) : (h.setLsMapping l m).perf = h.perf := by
  wiring
@[simp] theorem setLsMapping_dir (l : Nat) (m : Ref) : (h.setLsMapping l m).dir = h.dir := by
  wiring
@[simp] theorem setLsMapping_jp (l : Nat) (m : Ref) : (h.setLsMapping l m).jp = h.jp := by
  wiring
@[simp] theorem setLsMapping_ls (l : Nat) (m : Ref) (x : Nat) : (h.setLsMapping l m).ls x = if x = l then m else h.ls x := by
  wiring
@[simp] theorem setLsMapping_trimmer (l : Nat) (m : Ref) : (h.setLsMapping l m).trimmer = h.trimmer := by
  wiring
@[simp] theorem setLsMapping_reg (l : Nat) (m : Ref) : (h.setLsMapping l m).reg = h.reg := by
  wiring
@[simp] theorem setLsMapping_solver (l : Nat) (m : Ref) : (h.setLsMapping l m).solver = h.solver := by
  wiring
@[simp] theorem setLsMapping_reorder (l : Nat) (m : Ref) : (h.setLsMapping l m).reorder = h.reorder := by
  wiring
@[simp] theorem setReg_next (r : Nat) (f : Reg → Reg) : (h.setReg r f).next = h.next := by
  wiring
@[simp] theorem setReg_perf (r : Nat) (f : Reg → Reg) : (h.setReg r f).perf = h.perf := by
  wiring
@[simp] theorem setReg_dir (r : Nat) (f : Reg → Reg) : (h.setReg r f).dir = h.dir := by
  wiring
@[simp] theorem setReg_jp (r : Nat) (f : Reg → Reg) : (h.setReg r f).jp = h.jp := by
  wiring
@[simp] theorem setReg_ls (r : Nat) (f : Reg → Reg) : (h.setReg r f).ls = h.ls := by
  wiring
@[simp] theorem setReg_trimmer (r : Nat) (f : Reg → Reg) : (h.setReg r f).trimmer = h.trimmer := by
  wiring
@[simp] theorem setReg_reg (r : Nat) (f : Reg → Reg) (x : Nat) : (h.setReg r f).reg x = if x = r then f (h.reg r) else h.reg x := by
  wiring
@[simp] theorem setReg_solver (r : Nat) (f : Reg → Reg) : (h.setReg r f).solver = h.solver := by
  wiring
@[simp] theorem setReg_reorder (r : Nat) (f : Reg → Reg) : (h.setReg r f).reorder = h.reorder := by
  wiring
@[simp] theorem ifReg_next (r : Ref) (f : Reg → Reg) : (h.ifReg r f).next = h.next := by
  wiring
@[simp] theorem ifReg_perf (r : Ref) (f : Reg → Reg) : (h.ifReg r f).perf = h.perf := by
  wiring
@[simp] theorem ifReg_dir (r : Ref) (f : Reg → Reg) : (h.ifReg r f).dir = h.dir := by
  wiring
@[simp] theorem ifReg_jp (r : Ref) (f : Reg → Reg) : (h.ifReg r f).jp = h.jp := by
  wiring
@[simp] theorem ifReg_ls (r : Ref) (f : Reg → Reg) : (h.ifReg r f).ls = h.ls := by
  wiring
@[simp] theorem ifReg_trimmer (r : Ref) (f : Reg → Reg) : (h.ifReg r f).trimmer = h.trimmer := by
  wiring
@[simp] theorem ifReg_reg (r : Ref) (f : Reg → Reg) (x : Nat) : (h.ifReg r f).reg x = if r = some x then f (h.reg x) else h.reg x := by
  wiring
@[simp] theorem ifReg_solver (r : Ref) (f : Reg → Reg) : (h.ifReg r f).solver = h.solver := by
  wiring
@[simp] theorem ifReg_reorder (r : Ref) (f : Reg → Reg) : (h.ifReg r f).reorder = h.reorder := by
  wiring
@[simp] theorem setSolver_next (s : Nat) (f : Solver → Solver) : (h.setSolver s f).next = h.next := by
  wiring
@[simp] theorem setSolver_perf (s : Nat) (f : Solver → Solver) : (h.setSolver s f).perf = h.perf := by
  wiring
@[simp] theorem setSolver_dir (s : Nat) (f : Solver → Solver) : (h.setSolver s f).dir = h.dir := by
  wiring
@[simp] theorem setSolver_jp (s : Nat) (f : Solver → Solver) : (h.setSolver s f).jp = h.jp := by
  wiring
@[simp] theorem setSolver_ls (s : Nat) (f : Solver → Solver) : (h.setSolver s f).ls = h.ls := by
  wiring
@[simp] theorem setSolver_trimmer (s : Nat) (f : Solver → Solver) : (h.setSolver s f).trimmer = h.trimmer := by
  wiring
@[simp] theorem setSolver_reg (s : Nat) (f : Solver → Solver) : (h.setSolver s f).reg = h.reg := by
  wiring
@[simp] theorem setSolver_solver (s : Nat) (f : Solver → Solver) (x : Nat) : (h.setSolver s f).solver x = if x = s then f (h.solver s) else h.solver x := by
  wiring
@[simp] theorem setSolver_reorder (s : Nat) (f : Solver → Solver) : (h.setSolver s f).reorder = h.reorder := by
  wiring
@[simp] theorem alloc_next  : (h.alloc.2).next = h.next + 1 := by
  wiring
@[simp] theorem alloc_perf  (x : Nat) : (h.alloc.2).perf x = if x = h.next then {} else h.perf x := by
  wiring
@[simp] theorem alloc_dir  (x : Nat) : (h.alloc.2).dir x = if x = h.next then {} else h.dir x := by
  wiring
@[simp] theorem alloc_jp  (x : Nat) : (h.alloc.2).jp x = if x = h.next then {} else h.jp x := by
  wiring
@[simp] theorem alloc_ls  (x : Nat) : (h.alloc.2).ls x = if x = h.next then none else h.ls x := by
  wiring
@[simp] theorem alloc_trimmer  (x : Nat) : (h.alloc.2).trimmer x = if x = h.next then none else h.trimmer x := by
  wiring
@[simp] theorem alloc_reg  (x : Nat) : (h.alloc.2).reg x = if x = h.next then {} else h.reg x := by
  wiring
@[simp] theorem alloc_solver  (x : Nat) : (h.alloc.2).solver x = if x = h.next then {} else h.solver x := by
  wiring
@[simp] theorem alloc_reorder  (x : Nat) : (h.alloc.2).reorder x = if x = h.next then none else h.reorder x := by
  wiring

end Verif.Wiring
