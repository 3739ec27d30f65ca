import Verif.Model.Flags
import Verif.Proofs.Tables
import Verif.Props.Compile

/-!
# C65: flags of the compiler
-/

namespace PythonDice

open Compiler Spec

/-- The names of the flags. -/
def flagNames : List (List Char) :=
  ["COMPILER_FLAG_NON_LOCAL_SCOPE".toList, "COMPILER_FLAG_OPERATOR_ON_INT".toList, "COMPILER_FLAG_FUNC_LIB_CONFLICT".toList,
    "COMPILER_FLAG_FUNC_EXIST_CHECK".toList]

/-- What a dictionary asks for: a flag is set if it says so, and that functions exist is checked unless it says otherwise. -/
def asked (d : FlagDict) : Flags where
  nonLocal := decide (d.lookup "COMPILER_FLAG_NON_LOCAL_SCOPE".toList = some true)
  opOnInt := decide (d.lookup "COMPILER_FLAG_OPERATOR_ON_INT".toList = some true)
  libConflict := decide (d.lookup "COMPILER_FLAG_FUNC_LIB_CONFLICT".toList = some true)
  existCheck := decide (d.lookup "COMPILER_FLAG_FUNC_EXIST_CHECK".toList ≠ some false)

theorem lookup_filter_ne (d : FlagDict) {k l : List Char} (h : k ≠ l) : (d.filter fun p => p.1 ≠ l).lookup k = d.lookup k := by
  induction d with
  | nil => rfl
  | cons p d ih =>
    obtain ⟨m, v⟩ := p
    by_cases hm : m = l
    · have hk : (k == m) = false := by rw [beq_eq_false_iff_ne, hm]; exact h
      rw [List.filter_cons_of_neg (by simpa using hm), List.lookup_cons, hk]
      exact ih
    · rw [List.filter_cons_of_pos (by simpa using hm), List.lookup_cons, List.lookup_cons, ih]

theorem takeFlags_fst (d : FlagDict) : (takeFlags d).1 = asked d := by
  unfold takeFlags popFlag asked
  dsimp only
  rw [lookup_filter_ne _ (by decide +kernel), lookup_filter_ne _ (by decide +kernel), lookup_filter_ne _ (by decide +kernel),
    lookup_filter_ne _ (by decide +kernel), lookup_filter_ne _ (by decide +kernel), lookup_filter_ne _ (by decide +kernel)]
  have h1 : ∀ o : Option Bool, o.getD false = decide (o = some true) := by intro o; rcases o with _ | _ | _ <;> rfl
  have h2 : ∀ o : Option Bool, o.getD true = decide (o ≠ some false) := by intro o; rcases o with _ | _ | _ <;> rfl
  rw [h1, h1, h1, h2]

theorem takeFlags_snd (d : FlagDict) : (takeFlags d).2 = d.filter fun p => p.1 ∉ flagNames := by
  have key : ∀ (d : FlagDict) (a b c e : List Char),
      (((d.filter fun p => p.1 ≠ a).filter fun p => p.1 ≠ b).filter fun p => p.1 ≠ c).filter (fun p => p.1 ≠ e) =
        d.filter fun p => p.1 ∉ [a, b, c, e] := by
    intro d a b c e
    rw [List.filter_filter, List.filter_filter, List.filter_filter]
    refine List.filter_congr fun p _ => ?_
    by_cases h1 : p.1 = a <;> by_cases h2 : p.1 = b <;> by_cases h3 : p.1 = c <;> by_cases h4 : p.1 = e <;> simp [h1, h2, h3, h4]
  exact key d _ _ _ _

theorem takeFlags_known (d : FlagDict) : (takeFlags d).2 = [] ↔ ∀ p ∈ d, p.1 ∈ flagNames := by
  rw [takeFlags_snd, List.filter_eq_nil_iff]
  simp

/-- **C65** (src/parser/python_resolver.py:29-45): a text compiles with a dictionary of flags exactly if all flags in it are known and the text
compiles with the flags it asks for, and to the same text. -/
theorem C65_flags (d : FlagDict) (dig : Char → Bool) (s t : List Char) :
    (compileDict d dig s).1 = .ok t ↔ (∀ p ∈ d, p.1 ∈ flagNames) ∧ compile (asked d) dig s = .ok t := by
  unfold compileDict
  rw [takeFlags_fst, ← takeFlags_known]
  dsimp only
  rcases hc : compile (asked d) dig s with e | u
  · cases e with
    | resolver e =>
      rw [if_pos (by rfl)]
      by_cases h : (takeFlags d).2 = []
      · rw [if_pos h]
        simp [withFlagsErr]
      · rw [if_neg h]
        simp
    | _ =>
      rw [if_neg (by intro h; cases h)]
      simp [withFlagsErr]
  · rw [if_pos (by rfl)]
    by_cases h : (takeFlags d).2 = []
    · rw [if_pos h]
      simp [withFlagsErr, h]
    · rw [if_neg h]
      simp [h]

/-- Of a program (a text that the parser accepts) unknown flags are reported, all of them and only these. -/
theorem C65_unknown (d : FlagDict) (dig : Char → Bool) (s : List Char) (hd : ¬ ∀ p ∈ d, p.1 ∈ flagNames)
    (hs : reached (compile (asked d) dig s) = true) : (compileDict d dig s).1 = .error (.unknown (d.filter fun p => p.1 ∉ flagNames)) := by
  unfold compileDict
  rw [takeFlags_fst, ← takeFlags_snd]
  dsimp only
  rw [if_pos hs, if_neg fun h => hd ((takeFlags_known d).1 h)]

/-- **C65**, the dictionary of the caller after the call: it is as it was if the text is not a program; otherwise the flags have been taken
out of it. -/
theorem C65_dict (d : FlagDict) (dig : Char → Bool) (s : List Char) :
    (compileDict d dig s).2 = if reached (compile (asked d) dig s) then d.filter fun p => p.1 ∉ flagNames else d := by
  unfold compileDict
  rw [takeFlags_fst, ← takeFlags_snd]
  dsimp only
  split_ifs <;> rfl

/-- **C65** (partial): compiling again with the same dictionary gives the same if there are no flags in it. -/
theorem C65_again_partial (d : FlagDict) (hd : ∀ p ∈ d, p.1 ∉ flagNames) (dig : Char → Bool) (s : List Char) :
    compileDict (compileDict d dig s).2 dig s = compileDict d dig s := by
  have : (compileDict d dig s).2 = d := by
    rw [C65_dict, List.filter_eq_self.2 (fun p hp => by simpa using hd p hp), ite_self]
  rw [this]

/-- **C65**, in general: after a text has compiled the dictionary is empty, so that the next text, whatever it is, is compiled without flags. -/
theorem C65_second (d : FlagDict) (dig : Char → Bool) {s t : List Char} (h : (compileDict d dig s).1 = .ok t) (s' : List Char) :
    (compileDict (compileDict d dig s).2 dig s').1 = withFlagsErr (compile {} dig s') := by
  obtain ⟨h1, h2⟩ := (C65_flags d dig s t).1 h
  have : (compileDict d dig s).2 = [] := by
    rw [C65_dict, h2, if_pos (by rfl), ← takeFlags_snd]
    exact (takeFlags_known d).2 h1
  rw [this]
  unfold compileDict
  rw [takeFlags_fst]
  have e : asked [] = {} := by decide +kernel
  rw [e]
  dsimp only
  have h0 : (takeFlags []).2 = [] := rfl
  rw [if_pos h0, h0]
  split_ifs <;> rfl

/-- **C65**: compiling a text twice with the same dictionary of flags gives two texts. -/
theorem C65_twice_counterexample :
    let d : FlagDict := [("COMPILER_FLAG_NON_LOCAL_SCOPE".toList, true)]
    let s := "X: 3 output X".toList
    (compileDict d Char.isDigit s).1 = .ok "vars = {}\n\nvars['X'] = 3\noutput(vars['X'])\n".toList ∧
    (compileDict (compileDict d Char.isDigit s).2 Char.isDigit s).1 = .ok "X = 3\noutput(X)\n".toList := by
  unfold compileDict compile
  rw [Yacc.tables_eq]
  decide +kernel

/-- A misspelt flag. -/
example : (compileDict [("NON_LOCAL_SCOPE".toList, true), ("COMPILER_FLAG_OPERATOR_ON_INT".toList, true)] Char.isDigit "output 1".toList) =
    (.error (.unknown [("NON_LOCAL_SCOPE".toList, true)]), [("NON_LOCAL_SCOPE".toList, true)]) := by
  unfold compileDict compile
  rw [Yacc.tables_eq]
  decide +kernel

end PythonDice
