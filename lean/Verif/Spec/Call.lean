import Verif.Model.Cast
import Verif.Proofs.Canon
import Verif.Spec.Law

/-!
# Specification vocabulary: calling a function on random arguments

How the library is documented to convert arguments (numbers, sequences, dice for `T_N`, `T_S`, `T_D`
parameters), as expectations over independent arguments.
-/

namespace PythonDice
open Spec

/-- The die with one face per element of `s` (the constant 0 if `s` is empty). -/
def seqDie (s : List ℤ) : RV ℤ :=
  match RV.fromSeq {} s with
  | .ok d => d
  | .error _ => ⟨[], [], none⟩

/-- Expectation over the converted value of one argument: a die given for a number is drawn, a die given
for a sequence is the descending sequence of the draws of its pool. -/
def argLaw : Option Ty × Obj → (Obj → ℚ) → ℚ
  | (some .N, .seq s), g => g (.num s.sum)
  | (some .N, .rv r), g => Ex r.pairs fun v => g (.num v)
  | (some .S, .num n), g => g (.seq [n])
  | (some .S, .rv r), g => ExN r.source.1 r.source.2.pairs fun xs => g (.seq (descending xs))
  | (some .D, .num n), g => g (.rv ⟨[n], [1], none⟩)
  | (some .D, .seq s), g => g (.rv (seqDie s))
  | (_, o), g => g o

/-- Expectation over independent arguments. -/
def argsLaw : List (Option Ty × Obj) → (List Obj → ℚ) → ℚ
  | [], g => g []
  | a :: as, g => argLaw a fun x => argsLaw as fun xs => g (x :: xs)

/-- The law of a returned value seen as a number; `none` for a blank or missing result. -/
def resLaw : Option Obj → Option ((ℤ → ℚ) → ℚ)
  | some (.num n) => some fun g => g n
  | some (.seq s) => some fun g => g s.sum
  | some (.rv r) => some (Ex r.pairs)
  | some (.blank _) => none
  | none => none

/-- Expectation of `g` over the results of the calls that do not return a blank, `L a` being the law of the
result on arguments `a` (unnormalised). -/
def resultMass (args : List (Option Ty × Obj)) (L : List Obj → Option ((ℤ → ℚ) → ℚ)) (g : ℤ → ℚ) : ℚ :=
  argsLaw args fun a => match L a with
    | some K => K g
    | none => 0

/-- Probability that the result is not blank. -/
def resultProb (args : List (Option Ty × Obj)) (L : List Obj → Option ((ℤ → ℚ) → ℚ)) : ℚ :=
  argsLaw args fun a => if (L a).isSome then 1 else 0

/-- Dice given for a number have positive total weight; so do the dice of the pool given for a sequence. -/
def ArgOk : Option Ty × Obj → Prop
  | (some .N, .rv r) => r.Proper
  | (some .S, .rv r) => r.source.2.Proper
  | _ => True

/-- A die given for a number or for a sequence. -/
def IsRandom : Option Ty × Obj → Prop
  | (some .N, .rv _) => True
  | (some .S, .rv _) => True
  | _ => False

/-- A returned die has positive total weight. -/
def ResOk : Option Obj → Prop
  | some (.rv r) => r.Proper
  | _ => True

end PythonDice
