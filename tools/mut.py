#!/usr/bin/env python3
"""usage: mut.py file.json ; list of {file, def, old, new, claim, props}"""
import json,subprocess,os,re,sys,shutil
DEPS=r'''import Verif
open Lean
partial def go (env : Environment) (n : Name) (seen : NameSet) : NameSet :=
  if seen.contains n || !(`Verif).isPrefixOf n then seen else
  let seen := seen.insert n
  match env.find? n with
  | none => seen
  | some ci =>
    let s := ci.type.getUsedConstantsAsSet
    let s := match ci.value? (allowOpaque := true) with | some v => s ++ v.getUsedConstantsAsSet | none => s
    s.foldl (fun acc m => go env m acc) seen
run_cmd do
  let env ← getEnv
  for (n, _) in env.constants.map₁.toList do
    if (`Verif).isPrefixOf n then
      match n with
      | .str _ s =>
        if s.startsWith "C" && ((s.toList.drop 1).take 2).all Char.isDigit && s.length > 3 && !n.isInternal && (match env.find? n with | some (.thmInfo _) => true | _ => false) then
          let d := go env n {}
          IO.println s!"{n} {String.intercalate " " (d.toList.map toString)}"
      | _ => pure ()
'''
open('/tmp/mut/Deps.lean','w').write(DEPS)
muts=json.load(open(sys.argv[1]))
W='/tmp/mut/lean%d'%os.getpid()
shutil.rmtree(W,ignore_errors=True); subprocess.run(['cp','-a','/verif/lean',W],check=True)
subprocess.run('cd /verif/lean && lake env lean /tmp/mut/Deps.lean > /tmp/mut/deps.txt',shell=True)
deps={l.split()[0]:set(l.split()) for l in open('/tmp/mut/deps.txt') if l.strip()}
def decl_at(path,line):
    ls=open(path).read().split('\n')
    ns=[];cur=None
    for i,l in enumerate(ls[:line]):
        m=re.match(r'(namespace|section|end)\b\s*(\S*)',l)
        if m:
            if m[1]=='namespace': ns.append(m[2])
            elif m[1]=='section': ns.append('')
            elif ns: ns.pop()
        m=re.match(r'(?:@\[[^\]]*\]\s*)?(?:private |protected |noncomputable )*(theorem|def|lemma|instance|abbrev|structure|inductive|example)\s*([^\s:({\[]*)',l)
        if m: cur='.'.join([x for x in ns if x]+[m[2]]) if m[2] else 'example'
    return cur
for mu in muts:
    p=os.path.join(W,mu['file']); src=open(p).read()
    if src.count(mu['old'])<1: print('NOT FOUND',mu['def'],mu['old']); continue
    if src.count(mu['old'])>1 and not mu.get('multi'):
        k=mu.get('nth')
        if k is None: print('AMBIGUOUS',mu['def'],mu['old']); continue
        parts=src.split(mu['old']); new=mu['old'].join(parts[:k+1])+mu['new']+mu['old'].join(parts[k+1:])
    else: new=src.replace(mu['old'],mu['new'])
    open(p,'w').write(new)
    r=subprocess.run(['lake','build'],cwd=W,capture_output=True,text=True)
    out=r.stdout+r.stderr
    errs=set()
    for m in re.finditer(r'error: (Verif/\S+?\.lean):(\d+):\d+',out):
        d=decl_at(os.path.join(W,m[1]),int(m[2])); errs.add(d)
    failed=sorted(t for t,s in deps.items() if s&errs)
    exs='example' in errs
    ok=all(any(('.'+c+'_') in t or ('.'+c) in t for t in failed) for c in mu['props'])
    print(('OK  ' if (ok and r.returncode) else 'MISS'),mu['def'],'|',mu['old'].strip()[:50],'->',mu['new'].strip()[:50],'| direct:',sorted(e for e in errs if e)[:6],'| props:',[t.split('.')[-1] for t in failed])
    sys.stdout.flush()
    rec={'definition':mu['def'],'edit':f"{mu['old'].strip()}  ->  {mu['new'].strip()}",'claim':mu['claim'],'theorems_failed':failed,'failed_first':sorted(e for e in errs if e),'theorems_tightened':mu.get('tight',[]),'caught':bool(ok and r.returncode)}
    open('/tmp/mut/log.jsonl','a').write(json.dumps(rec,ensure_ascii=False)+'\n')
    open(p,'w').write(src)
subprocess.run(['lake','build'],cwd=W,capture_output=True)
shutil.rmtree(W,ignore_errors=True)
