import Verif.Basic
import Mathlib.Computability.RegularExpressions
import Mathlib.Data.Rat.Floor

/-
Model of include/ode_num_int/infra/OptionalParameters.h, ComponentConfiguration.h, Factory.h and
include/ode_num_int/util/lex_idnum.h.

Strings are lists of characters without zero characters. A set of parameters is a cell of a heap,
because nested parameters are held by shared pointers: copying a value copies the pointer. Cells
are never freed in the model: C++ frees a cell when nothing refers to it.
-/

namespace Verif.Infra

/-- `std::string` (texts in OptionalParameters.h:45, 143) -/
abbrev Text := List Char

/-- `Path` (OptionalParameters.h:45) -/
abbrev Path := List Text

/-- `formatPath` (OptionalParameters.h:363-372), the loop from item `i` on -/
def formatFrom : Nat → Path → Text
  | _, [] => []
  | i, x :: p => (if 0 < i then ['.'] else []) ++ x ++ formatFrom (i + 1) p

/-- `formatPath` (OptionalParameters.h:363-372) -/
def formatPath (p : Path) : Text := formatFrom 0 p

/-- `find_first_of('.', n)`, the size of the string if there is none (OptionalParameters.h:379-381),
relative to `n`: `s` is the string from position `n` on. -/
def findDot : Text → Nat
  | [] => 0
  | c :: s => if c = '.' then 0 else findDot s + 1

/-- Loop of `parsePath` (OptionalParameters.h:378-386); `s` is the string from position `n` on. Each
pass takes at least one character, so the number of passes allowed is the number of characters. -/
def parseFrom : Nat → Text → Path
  | 0, _ => []
  | fuel + 1, s =>
    if s.length = 0 then []
    else
      let nd := findDot s
      if nd = 0 then [] else s.take nd :: parseFrom fuel (s.drop (nd + 1))

/-- `parsePath` (OptionalParameters.h:374-388). The counter `n` is an unsigned int in the code:
strings of 2^32 characters or more are not modelled. -/
def parsePath (s : Text) : Path := parseFrom s.length s

/-- `Value` (OptionalParameters.h:57-184): text and nested parameters. The getter of registered
types is not modelled. -/
structure Val where
  text : Text
  nested : Option Nat
  deriving DecidableEq, Repr

/-- `Parameters` (OptionalParameters.h:50): keys are distinct -/
abbrev Cell := List (Text × Val)

/-- All sets of parameters: those of objects and those held by `m_nestedParameters`
(OptionalParameters.h:144) -/
abbrev Heap := List Cell

/-- `Parameters::find` (OptionalParameters.h:195, 227) -/
def Cell.find (c : Cell) (x : Text) : Option Val := (c.find? (fun e => e.1 = x)).map Prod.snd

/-- `parameters(root, path)` (OptionalParameters.h:191-204), the loop over the items; `full` is the
whole path -/
def paramsFrom (h : Heap) (full : Path) : Nat → Path → Res Nat
  | c, [] => .ok c
  | c, x :: p => do
    let cell ← Res.raw h c
    match cell.find x with
    | none => .error (.exc (String.ofList ("Invalid path ".toList ++ formatPath full ++ ": item '".toList ++ x ++
        "' is not found".toList)))
    | some v =>
      match v.nested with
      | none => .error (.exc (String.ofList ("Invalid path ".toList ++ formatPath full ++ ": item '".toList ++ x ++
          "' is a leaf".toList)))
      | some c' => paramsFrom h full c' p

/-- `parameters(root, path)` (OptionalParameters.h:191-204) -/
def params (h : Heap) (root : Nat) (p : Path) : Res Nat := paramsFrom h p root p

/-- `decomposeValuePath` (OptionalParameters.h:351-361) -/
def decompose (p : Path) : Res (Path × Text) :=
  match p.getLast? with
  | none => .error (.exc "Value path is empty")
  | some x => .ok (p.dropLast, x)

/-- `value(root, path)` (OptionalParameters.h:221-231): the reference returned is the cell and the
name in it -/
def valueRef (h : Heap) (root : Nat) (p : Path) : Res (Nat × Text) := do
  let (parent, name) ← decompose p
  let c ← params h root parent
  let cell ← Res.raw h c
  match cell.find name with
  | none => .error (.exc (String.ofList ("Invalid value path ".toList ++ formatPath p ++
      ": value is not found".toList)))
  | some _ => .ok (c, name)

/-- Reading through the reference returned by `value` (OptionalParameters.h:230) -/
def readRef (h : Heap) (r : Nat × Text) : Res Val := do
  let cell ← Res.raw h r.1
  match cell.find r.2 with
  | none => .error .ub
  | some v => .ok v

/-- Assignment of a value through the reference (ComponentConfiguration.h:111; generated `Value::operator=`): text and pointer
are copied -/
def assignRef (h : Heap) (r : Nat × Text) (v : Val) : Heap :=
  h.modify r.1 (fun cell => cell.map (fun e => if e.1 = r.2 then (e.1, v) else e))

/-- Copy of a set of parameters (OptionalParameters.h:131-133; generated copy constructor of `std::map`): pointers to nested
parameters are copied. Returns the new cell. -/
def copyCell (h : Heap) (c : Nat) : Res (Heap × Nat) := do
  let cell ← Res.raw h c
  .ok (h ++ [cell], h.length)

/-- `maybeSetParameter` (OptionalParameters.h:281-291), `maybeLoadParameter` (300-306): the value
found is converted and stored -/
def maybeLoad {T : Type} (conv : Val → Res T) (cell : Cell) (name : Text) (dst : T) : Res (Bool × T) :=
  match cell.find name with
  | none => .ok (false, dst)
  | some v => do
    let x ← conv v
    .ok (true, x)

/-! ## Lexical checks -/

/-- Range `a-b` in a bracket expression (lex_idnum.h:65, 73, 80, 87): characters with codes `a` … `b` -/
def chars (a b : Nat) : List Char := (List.range (b + 1 - a)).map (fun i => Char.ofNat (a + i))

/-- Bracket expression `[…]` (lex_idnum.h:65, 73, 80, 87) -/
def cls (l : List Char) : RegularExpression Char :=
  l.foldr (fun c r => RegularExpression.char c + r) 0

/-- `[0-9]` (lex_idnum.h:65, 73, 80, 87) -/
def digit : List Char := chars 48 57

/-- `r?` (lex_idnum.h:73, 80) -/
def opt (r : RegularExpression Char) : RegularExpression Char := 1 + r

/-- `r+` (lex_idnum.h:73, 80, 87) -/
def plus (r : RegularExpression Char) : RegularExpression Char := r * r.star

/-- `IsIdentifier` (lex_idnum.h:62-66): `^[a-zA-z_][a-zA-z0-9_]*$` -/
def isIdentifier (s : Text) : Bool :=
  (cls (chars 97 122 ++ chars 65 122 ++ ['_']) *
    (cls (chars 97 122 ++ chars 65 122 ++ digit ++ ['_'])).star).rmatch s

/-- `IsNumber` (lex_idnum.h:69-74):
`^[+-]?([0-9]*\.?[0-9]+|[0-9]+\.?[0-9]*)([eE][+-]?[0-9]+)?$` -/
def isNumber (s : Text) : Bool :=
  (opt (cls ['+', '-']) *
    ((cls digit).star * opt (cls ['.']) * plus (cls digit) +
      plus (cls digit) * opt (cls ['.']) * (cls digit).star) *
    opt (cls ['e', 'E'] * opt (cls ['+', '-']) * plus (cls digit))).rmatch s

/-- `IsIntegerNumber` (lex_idnum.h:77-81): `^[+-]?[0-9]+$` -/
def isInteger (s : Text) : Bool := (opt (cls ['+', '-']) * plus (cls digit)).rmatch s

/-- `IsHexIntegerNumber` (lex_idnum.h:84-88): `^[0-9a-fA-F]+$` -/
def isHexInteger (s : Text) : Bool := (plus (cls (digit ++ chars 97 102 ++ chars 65 70))).rmatch s

/-! ## Conversions -/

/-- Value of a sequence of digits: what `std::stoi`, `std::stoul` compute
(OptionalParameters.h:162, 169) -/
def digitsVal (s : Text) : Nat := s.foldl (fun n c => 10 * n + (c.toNat - 48)) 0

/-- Sign (true if minus) and digits of a text that passed `IsIntegerNumber`; `strtol` and `strtoul`
read the same (OptionalParameters.h:162, 169). -/
def signDigits : Text → Bool × Text
  | '-' :: s => (true, s)
  | '+' :: s => (false, s)
  | s => (false, s)

/-- `std::to_string(int)` (OptionalParameters.h:78) -/
def ofInt (x : Int) : Text :=
  if x < 0 then '-' :: Nat.toDigits 10 x.natAbs else Nat.toDigits 10 x.natAbs

/-- `std::to_string(unsigned)` (OptionalParameters.h:81) -/
def ofUnsigned (x : Nat) : Text := Nat.toDigits 10 x

/-- `Value(bool)` (OptionalParameters.h:92) -/
def ofBool (x : Bool) : Text := if x then "true".toList else "false".toList

/-- `toType(int&)` (OptionalParameters.h:158-163); `std::stoi` throws `std::out_of_range` -/
def toInt (s : Text) : Res Int :=
  if isInteger s then
    let (neg, d) := signDigits s
    let v : Int := if neg then -(digitsVal d : Int) else digitsVal d
    if -2147483648 ≤ v ∧ v ≤ 2147483647 then .ok v else .error (.exc "stoi")
  else .error (.exc (String.ofList ("Not an integer number: '".toList ++ s ++ "'".toList)))

/-- `toType(unsigned&)` (OptionalParameters.h:165-170) where `unsigned long` has 64 bits: `strtoul`
negates modulo 2^64, the cast takes the remainder modulo 2^32 -/
def toUnsigned (s : Text) : Res Nat :=
  if isInteger s then
    let (neg, d) := signDigits s
    let v := digitsVal d
    if 18446744073709551616 ≤ v then .error (.exc "stoul")
    else .ok ((if neg then (18446744073709551616 - v) % 18446744073709551616 else v) % 4294967296)
  else .error (.exc (String.ofList ("Not an integer number: '".toList ++ s ++ "'".toList)))

/-- `toType(bool&)` (OptionalParameters.h:172-180) -/
def toBool (s : Text) : Res Bool :=
  if s = "0".toList ∨ s = "false".toList then .ok false
  else if s = "1".toList ∨ s = "true".toList then .ok true
  else .error (.exc (String.ofList ("Not an boolean value: '".toList ++ s ++ "'".toList)))

/-- Nearest integer, ties to even: rounding of the last digit written (OptionalParameters.h:87) -/
def roundEven (x : ℚ) : Int :=
  let f := ⌊x⌋
  if x - f < 1 / 2 then f
  else if 1 / 2 < x - f then f + 1
  else if f % 2 = 0 then f else f + 1

/-- Decimal exponent of a positive number by search among `e, e+1, …` (decimal output,
OptionalParameters.h:87) -/
def decExp (x : ℚ) : Nat → Int → Int
  | 0, e => e
  | n + 1, e => if x < (10 : ℚ) ^ (e + 1) then e else decExp x n (e + 1)

/-- `Value(double)` (OptionalParameters.h:84-89): the number denoted by the text written with 16
significant digits; for the exponents a double can have. That the text denotes this number exactly is
part of the standard library. -/
def ofDouble (x : ℚ) : ℚ :=
  if x = 0 then 0
  else
    let e := decExp |x| 640 (-330)
    let m := roundEven (|x| * (10 : ℚ) ^ (15 - e))
    (if x < 0 then -1 else 1) * m * (10 : ℚ) ^ (e - 15)

/-! ## ComponentConfiguration -/

/-- A component with parameters: `parameters`, `setParameters` (OptionalParameters.h:247-254) -/
structure Provider (σ P : Type) where
  get : σ → P
  set : σ → P → Res σ

/-- Sets of parameters `P` with values `V` found and assigned by path (OptionalParameters.h:221-231) -/
structure ParamOps (P V : Type) where
  find : P → Path → Res V
  assign : P → Path → V → Res P

/-- State of a configuration and of its component (ComponentConfiguration.h:69-74); the provider is
there -/
structure Cfg (σ P : Type) where
  params : P
  known : Bool
  comp : σ

variable {σ P V : Type}

/-- `parametersPriv` (ComponentConfiguration.h:88-100), loading -/
def Cfg.load (pr : Provider σ P) (c : Cfg σ P) : Cfg σ P :=
  if c.known then c else { c with params := pr.get c.comp, known := true }

/-- `valuePriv` (ComponentConfiguration.h:102-106) -/
def Cfg.value (pr : Provider σ P) (ops : ParamOps P V) (c : Cfg σ P) (p : Path) : Cfg σ P × Res V :=
  let c := c.load pr
  (c, ops.find c.params p)

/-- `setValuePriv` (ComponentConfiguration.h:108-116): the state is kept when an exception leaves the
function -/
def Cfg.setValue (pr : Provider σ P) (ops : ParamOps P V) (c : Cfg σ P) (p : Path) (v : V) :
    Cfg σ P × Res Unit :=
  let c := c.load pr
  match ops.assign c.params p v with
  | .error e => (c, .error e)
  | .ok ps =>
    let c := { c with params := ps }
    match pr.set c.comp c.params with
    | .error e => (c, .error e)
    | .ok st => ({ c with comp := st, known := false }, .ok ())

/-! ## Factory -/

/-- Registry of a factory and the type identifiers stored with types (Factory.h:137-140, 195); types
are numbers -/
structure Reg where
  gens : List (Text × Nat)
  ids : List (Nat × Text)

/-- `r[k] = v` (Factory.h:103, 195) -/
def insertKV {A B : Type} [DecidableEq A] (k : A) (v : B) : List (A × B) → List (A × B)
  | [] => [(k, v)]
  | (a, b) :: l => if a = k then (k, v) :: l else (a, b) :: insertKV k v l

/-- `r.find(k)` (Factory.h:114) -/
def findKV {A B : Type} [DecidableEq A] (k : A) : List (A × B) → Option B
  | [] => none
  | (a, b) :: l => if a = k then some b else findKV k l

/-- Constructor of `FactoryMixin<Type, Interface>::Registrator` (Factory.h:193-196, 99-104; the
ASSERT does nothing) -/
def Reg.register (r : Reg) (ty : Nat) (id : Text) : Reg :=
  ⟨insertKV id ty r.gens, insertKV ty id r.ids⟩

/-- `Factory::newInstance` (Factory.h:111-118): the type of the instance -/
def Reg.newInstance (r : Reg) (id : Text) : Res Nat :=
  match findKV id r.gens with
  | none => .error (.exc (String.ofList ("Failed to find type '".toList ++ id ++ "' in registry".toList)))
  | some ty => .ok ty

/-- `FactoryMixin::typeId` (Factory.h:199-207): empty for a type never registered -/
def Reg.typeId (r : Reg) (ty : Nat) : Text := (findKV ty r.ids).getD []

/-- `Factory::isTypeRegistered` (Factory.h:132-134) -/
def Reg.isRegistered (r : Reg) (id : Text) : Bool := (findKV id r.gens).isSome

end Verif.Infra
