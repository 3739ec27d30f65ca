import Verif.Spec.Naive

/-!
# Specification vocabulary: what can be computed without rounding

The library keeps the probabilities of a die as whole numbers with a common denominator, and rounds when it is above a bound.  Here it is said,
of the enumeration alone, when this does not happen: every law that comes up has a common denominator within the bound.
-/

namespace Spec.Naive

open PythonDice.Compiler

/-- Ten million million million million million, as a floating point number. -/
def most : ℕ := 9999999999999999635896294965248

/-- All probabilities are multiples of `1/n`. -/
def Over (n : ℕ) (l : Law) : Prop := 0 < n ∧ ∀ v, ∃ k : ℕ, prob l v = (k : ℚ) / n

/-- The probabilities have a common denominator within the bound. -/
def Exact (l : Law) : Prop := ∃ n, n ≤ most ∧ Over n l

/-- A value whose probabilities have a common denominator within the bound. -/
def ExactVal : Val → Prop
  | .die l _ => Exact l
  | _ => True

/-- So many dice: all their outcomes together have a common denominator within the bound.  For less than two dice nothing is computed. -/
def ExactRolls (k : ℤ) (b : Law) : Prop := 1 < k.natAbs → ∃ n, Over n b ∧ n ^ k.natAbs ≤ most

/-- `n d m` -/
def ExactRoll (n d : Val) : Prop := ∀ b, faces d = some b → (∀ k ∈ amounts n, ExactRolls k b) ∧ ∀ l p, n = .die l p → ExactVal (rollVal n d)

/-- A function of the library: its value; also with fewer explosions; also for each outcome of its first argument. -/
def ExactLib (f : Table → List Val → Option Val) (t : Table) (args : List Val) : Prop :=
  (∀ e, e ≤ t.explode → ∀ v, f ⟨e, t.low⟩ args = some v → ExactVal v) ∧
    ∀ a as, args = a :: as → ∀ n ∈ amounts a, ∀ v, f t (.num n :: as) = some v → ExactVal v

/-- What is required of user functions. -/
abbrev ExactSub := Scope → Funs → List DefPart → Block → List Val → Prop

/-- A call. -/
def ExactCall (t : Table) (sub : ExactSub) (fns : Funs) (fr : Scope) (f : Fun) (args : List Val) : Prop :=
  match f with
  | .lib g => ExactLib g t args
  | .user d body => sub fr fns d body args

mutual

/-- An expression: its value, and what it is computed from. -/
def ExactE (R : Rules) (call : Call) (sub : ExactSub) (fns : Funs) (fr : Scope) : Expr → Prop
  | .num _ => True
  | .dec _ _ => True
  | .var _ => True
  | .str _ => True
  | .group e => ExactE R call sub fns fr e
  | .bin op l r => ExactE R call sub fns fr l ∧ ExactE R call sub fns fr r ∧ ∀ v, value R call fns fr (.bin op l r) = some v → ExactVal v
  | .ndm l r => ExactE R call sub fns fr l ∧ ExactE R call sub fns fr r ∧
      ∀ a b, value R call fns fr l = some a → value R call fns fr r = some b → ExactRoll a b
  | .dm r => ExactE R call sub fns fr r
  | .unary _ e => ExactE R call sub fns fr e
  | .hash e => ExactE R call sub fns fr e
  | .seq es => ExactElems R call sub fns fr es
  | .call cs => ExactArgs R call sub fns fr cs ∧
      ∀ f args, fns.lookup (callSig cs) = some f → arguments R call fns fr cs = some args → ExactCall call.table sub fns fr f args

/-- The elements of a sequence. -/
def ExactElems (R : Rules) (call : Call) (sub : ExactSub) (fns : Funs) (fr : Scope) : Elems → Prop
  | .nil => True
  | .expr e es => ExactE R call sub fns fr e ∧ ExactElems R call sub fns fr es
  | .range l r es => ExactE R call sub fns fr l ∧ ExactE R call sub fns fr r ∧ ExactElems R call sub fns fr es

/-- The arguments of a call. -/
def ExactArgs (R : Rules) (call : Call) (sub : ExactSub) (fns : Funs) (fr : Scope) : CallParts → Prop
  | .nil => True
  | .word _ cs => ExactArgs R call sub fns fr cs
  | .arg e cs => ExactE R call sub fns fr e ∧ ExactArgs R call sub fns fr cs

end

/-- A loop, until there is a result. -/
def ExactLoop (f : Point → ℤ → Option (Point × Option Val)) (P : Point → ℤ → Prop) : List ℤ → Point → Prop
  | [], _ => True
  | n :: ns, s => P s n ∧ ∀ s', f s n = some (s', none) → ExactLoop f P ns s'

mutual

/-- A statement: all that is computed. -/
def ExactS (R : Rules) (call : Config → Call) (sub : Config → ExactSub) : Stmt → Point → Prop
  | .output e, s => ExactE R (call s.conf) (sub s.conf) s.fns s.fr e
  | .outputNamed e _, s => ExactE R (call s.conf) (sub s.conf) s.fns s.fr e
  | .set _ e, s => ExactE R (call s.conf) (sub s.conf) s.fns s.fr e
  | .function _ _, _ => True
  | .result e, s => ExactE R (call s.conf) (sub s.conf) s.fns s.fr e
  | .cond c body rest, s => ExactE R (call s.conf) (sub s.conf) s.fns s.fr c ∧
      ∀ v t, value R (call s.conf) s.fns s.fr c = some v → truth v = some t →
        if t then ExactB R call sub body s else ExactElse R call sub rest s
  | .loop x e body, s => ExactE R (call s.conf) (sub s.conf) s.fns s.fr e ∧
      ∀ v ns, value R (call s.conf) s.fns s.fr e = some v → numbers v = some ns →
        ExactLoop (fun s n => block R call body { s with fr := s.fr.set x (.num n) })
          (fun s n => ExactB R call sub body { s with fr := s.fr.set x (.num n) }) ns s
  | .assign _ e, s => ExactE R (call s.conf) (sub s.conf) s.fns s.fr e

/-- A block, until there is a result. -/
def ExactB (R : Rules) (call : Config → Call) (sub : Config → ExactSub) : Block → Point → Prop
  | .nil, _ => True
  | .cons st b, s => ExactS R call sub st s ∧ ∀ s', statement R call st s = some (s', none) → ExactB R call sub b s'

/-- Alternatives. -/
def ExactElse (R : Rules) (call : Config → Call) (sub : Config → ExactSub) : Else → Point → Prop
  | .done, _ => True
  | .else_ b, s => ExactB R call sub b s
  | .elif c b r, s => ExactE R (call s.conf) (sub s.conf) s.fns s.fr c ∧
      ∀ v t, value R (call s.conf) s.fns s.fr c = some v → truth v = some t →
        if t then ExactB R call sub b s else ExactElse R call sub r s

end

/-- A user function: its body for every choice of the arguments, and its value. -/
def ExactUser (R : Rules) (c : Config) : ℕ → ExactSub
  | 0 => fun _ _ _ _ _ => True
  | n + 1 => fun fr fns d body args =>
    let as := ((paramsOf d).map Prod.snd).zip args
    let P := fun vs => ExactB R (fun _ => callUser R c n) (fun _ => ExactUser R c n) body ⟨fns, begin' R fr d body vs, [], { c with left := n }⟩
    if as.any nothing then True
    else if as.any random then
      (∀ cs, allChoices as = some cs → ∀ x ∈ cs, P x.1) ∧ ∀ v, (callUser R c (n + 1)).user fr fns d body args = some v → ExactVal v
    else P (as.map convert)

/-- A program that begins with these settings. -/
def ExactProgram (R : Rules) (c : Config) (p : Block) : Prop :=
  ExactB R (callIn R) (fun c => ExactUser R c c.left.toNat) p ⟨if R.lib then library else [], ⟨none, [], []⟩, [], c⟩

end Spec.Naive
