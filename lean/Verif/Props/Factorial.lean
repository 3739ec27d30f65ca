import Mathlib.Data.Nat.Factorial.Basic
import Mathlib.Tactic.Linarith
import Verif.Model.Factorial
import Verif.Proofs.Expand

/-!
# C104: `factorial` and its table

`_get_expanded_possible_rolls` multiplies by `factorial(N)`, which is recursive and remembers what it has computed (src/utils.py:23-29).
-/

namespace PythonDice

open Factorial (Memo)

/-- How many frames a call with `n` needs if the values up to `m` are known. -/
def framesNeeded (m n : ℤ) : ℤ := if n ≤ max m 1 then 1 else n - max m 1 + 1

/-- Up to where the values are known after a history, told without the table: a call that has the frames it needs adds what is below its argument. -/
def knownUpTo : List (ℕ × ℤ) → ℤ → ℤ
  | [], m => m
  | (f, n) :: h, m => knownUpTo h (if framesNeeded m n ≤ f then max m n else m)

/-- The table holds factorials, and of the positive numbers those up to `m`. -/
structure FactorialTable (m : ℤ) (t : Memo) : Prop where
  nonneg : 0 ≤ m
  value : ∀ k v, t.lookup k = some v → v = (k.toNat.factorial : ℤ)
  known : ∀ k, 1 ≤ k → ((t.lookup k).isSome ↔ k ≤ m)

theorem lookup_cons_int (k n v : ℤ) (t : Memo) : List.lookup k ((n, v) :: t) = if k = n then some v else t.lookup k := by
  rw [List.lookup_cons]
  by_cases h : k = n
  · simp [h]
  · have hb : (k == n) = false := by simpa using h
    simp [hb, h]

theorem factorial_toNat {n : ℤ} (h : 1 < n) : (n.toNat.factorial : ℤ) = n * ((n - 1).toNat.factorial : ℤ) := by
  obtain ⟨k, rfl⟩ : ∃ k : ℕ, n = k + 1 := ⟨(n - 1).toNat, by omega⟩
  have h1 : ((k : ℤ) + 1).toNat = k + 1 := by omega
  have h2 : ((k : ℤ) + 1 - 1).toNat = k := by omega
  rw [h1, h2, Nat.factorial_succ]
  push_cast
  ring

/-- One call. -/
theorem factorial_call (f : ℕ) : ∀ (n m : ℤ) (t : Memo), FactorialTable m t →
    if framesNeeded m n ≤ f then
      (Factorial.factorial f n t).1 = some (n.toNat.factorial : ℤ) ∧ FactorialTable (max m n) (Factorial.factorial f n t).2
    else Factorial.factorial f n t = (none, t) := by
  induction f with
  | zero =>
    intro n m t _
    rw [if_neg (by unfold framesNeeded; push_cast; split_ifs <;> omega)]
    rfl
  | succ f ih =>
    intro n m t ht
    have hm := ht.nonneg
    rw [Factorial.factorial]
    cases hl : t.lookup n with
    | some v =>
      have hle : n ≤ max m 1 := by
        by_contra hn
        have := (ht.known n (by omega)).1 (by rw [hl]; rfl)
        omega
      rw [if_pos (by rw [framesNeeded, if_pos hle]; push_cast; omega)]
      refine ⟨congrArg some (ht.value n v hl), ?_⟩
      by_cases h1 : 1 ≤ n
      · have := (ht.known n h1).1 (by rw [hl]; rfl)
        rw [max_eq_left this]
        exact ht
      · rw [max_eq_left (by omega)]
        exact ht
    | none =>
      dsimp only
      by_cases h1 : n > 1
      · rw [if_pos h1]
        have hmn : m < n := by
          by_contra h
          have := (ht.known n (by omega)).2 (by omega)
          rw [hl] at this
          cases this
        have hneed : framesNeeded m n = framesNeeded m (n - 1) + 1 := by
          unfold framesNeeded
          split_ifs <;> omega
        have hrec := ih (n - 1) m t ht
        by_cases hf : framesNeeded m (n - 1) ≤ f
        · rw [if_pos hf] at hrec
          rw [if_pos (by rw [hneed]; push_cast; omega)]
          obtain ⟨hv, htab⟩ := hrec
          generalize Factorial.factorial f (n - 1) t = r at hv htab
          obtain ⟨v, t'⟩ := r
          dsimp only at hv htab
          subst hv
          dsimp only
          rw [← factorial_toNat h1]
          refine ⟨rfl, by omega, ?_, ?_⟩
          · intro k v hk
            rw [lookup_cons_int] at hk
            split_ifs at hk with hkn
            · rw [hkn]
              exact (Option.some.inj hk).symm
            · exact htab.value k v hk
          · intro k hk
            rw [lookup_cons_int]
            split_ifs with hkn
            · simp [hkn]
            · rw [htab.known k hk]
              omega
        · rw [if_neg hf] at hrec
          rw [if_neg (by rw [hneed]; push_cast; omega), hrec]
      · rw [if_neg h1]
        rw [if_pos (by rw [framesNeeded, if_pos (by omega)]; push_cast; omega)]
        have hone : (n.toNat.factorial : ℤ) = 1 := by
          have : n.toNat = 0 ∨ n.toNat = 1 := by omega
          rcases this with h | h <;> rw [h] <;> rfl
        refine ⟨by rw [hone], by omega, ?_, ?_⟩
        · intro k v hk
          rw [lookup_cons_int] at hk
          split_ifs at hk with hkn
          · rw [hkn, hone]
            exact (Option.some.inj hk).symm
          · exact ht.value k v hk
        · intro k hk
          rw [lookup_cons_int]
          split_ifs with hkn
          · simp [hkn]
          · rw [ht.known k hk]
            omega

theorem factorial_table (h : List (ℕ × ℤ)) : ∀ (m : ℤ) (t : Memo), FactorialTable m t →
    FactorialTable (knownUpTo h m) (h.foldl (fun t c => (Factorial.factorial c.1 c.2 t).2) t) := by
  induction h with
  | nil => intro m t ht; exact ht
  | cons c h ih =>
    intro m t ht
    obtain ⟨f, n⟩ := c
    rw [List.foldl_cons, knownUpTo]
    apply ih
    have := factorial_call f n m t ht
    dsimp only
    split_ifs at this ⊢
    · exact this.2
    · rw [this]
      exact ht

/-- **C104** (src/utils.py:23-29): after every history of calls, also of calls that failed, a call returns the factorial if it has the frames it needs,
and raises RecursionError otherwise; how many it needs depends on the largest factorial known. -/
theorem C104_call (h : List (ℕ × ℤ)) (f : ℕ) (n : ℤ) :
    (Factorial.factorial f n (Factorial.after h)).1 =
      if framesNeeded (knownUpTo h 0) n ≤ f then some (n.toNat.factorial : ℤ) else none := by
  have ht : FactorialTable 0 [] := ⟨le_rfl, fun _ _ h => (nomatch h), fun k hk => by simp; omega⟩
  have := factorial_call f n _ _ (factorial_table h 0 [] ht)
  rw [Factorial.after]
  split_ifs at this ⊢
  · exact this.1
  · rw [this]

/-- What is returned does not depend on the history, and is what the model of `_get_expanded_possible_rolls` uses. -/
theorem C104_value (h : List (ℕ × ℤ)) (f n : ℕ) (v : ℤ) (hv : (Factorial.factorial f n (Factorial.after h)).1 = some v) :
    v = RV.factorial n := by
  rw [C104_call] at hv
  split_ifs at hv
  rw [Pool.factorial_eq, ← Option.some.inj hv, Int.toNat_natCast]

/-- The first call succeeds exactly if its argument is at most the number of frames left (and there is one). -/
theorem C104_first (f : ℕ) (n : ℤ) : (Factorial.factorial f n []).1.isSome ↔ 1 ≤ f ∧ n ≤ f := by
  have h := C104_call [] f n
  rw [show Factorial.after [] = [] from rfl] at h
  rw [h, knownUpTo, framesNeeded]
  split_ifs <;> simp <;> omega

/-- After a call with `n` that has succeeded, one frame is enough for all smaller arguments, and a few for slightly larger ones. -/
theorem C104_next (h : List (ℕ × ℤ)) (f g : ℕ) (n k : ℤ) (hn : (Factorial.factorial f n (Factorial.after h)).1.isSome) (hg : 1 ≤ g) (hk : k < n + g) :
    (Factorial.factorial g k (Factorial.after (h ++ [(f, n)]))).1 = some (k.toNat.factorial : ℤ) := by
  have hk' : ∀ (h : List (ℕ × ℤ)) (m : ℤ), knownUpTo (h ++ [(f, n)]) m =
      if framesNeeded (knownUpTo h m) n ≤ f then max (knownUpTo h m) n else knownUpTo h m := by
    intro h
    induction h with
    | nil => intro m; rfl
    | cons c h ih => intro m; exact ih _
  rw [C104_call] at hn ⊢
  split_ifs at hn with hf
  · rw [hk', if_pos hf, if_pos]
    unfold framesNeeded
    split_ifs <;> omega
  · cases hn

/-- Calls in a fresh process: with 990 frames left, 1000 raises; asked for in two steps it does not. -/
example : (Factorial.factorial 990 1000 []).1 = none ∧
    (Factorial.factorial 990 1000 (Factorial.after [(990, 900)])).1 = some ((1000 : ℤ).toNat.factorial : ℤ) := by
  refine ⟨?_, C104_next [] 990 990 900 1000 ?_ (by decide) (by decide)⟩
  · have h := C104_first 990 1000
    rw [← Option.not_isSome_iff_eq_none, h]
    decide
  · rw [show Factorial.after [] = [] from rfl, C104_first]
    decide

example : Factorial.factorial 10 4 [] = (some 24, [(4, 24), (3, 6), (2, 2), (1, 1)]) := by decide

/-- A failed call leaves no trace. -/
example : Factorial.factorial 3 4 [] = (none, []) := by decide

end PythonDice
