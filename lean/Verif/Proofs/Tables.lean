import Verif.Proofs.Build
import Verif.Model.Parser

/-!
# The tables
-/

namespace PythonDice.Yacc

open Lexer (Kind Token)

theorem tables_eq : tables = tableData := build_eq

/-- The action table, as written out. -/
def act (s a : ℕ) : Option Action := rowAction a (actionData.getD s [])

/-- The goto table, as written out. -/
def gotoOn (s x : ℕ) : Option ℕ := assoc x (gotoData.getD s [])

theorem assoc_filterMap {α : Type} (f : ℕ → Option α) (a : ℕ) (l : List ℕ) (ha : a ∈ l) :
    assoc a (l.filterMap fun i => (f i).map fun x => (i, x)) = f a := by
  induction l with
  | nil => cases ha
  | cons i l ih =>
    by_cases hi : a = i
    · subst hi
      cases hf : f a with
      | none =>
        simp only [List.filterMap_cons, hf, Option.map_none]
        by_cases hl : a ∈ l
        · rw [ih hl, hf]
        · clear ih ha
          induction l with
          | nil => rfl
          | cons j l ih =>
            have hj : a ≠ j := fun e => hl (by simp [e])
            have hl' : a ∉ l := fun e => hl (by simp [e])
            cases hfj : f j with
            | none => simpa [List.filterMap_cons, hfj] using ih hl'
            | some x => simpa [List.filterMap_cons, hfj, assoc, hj] using ih hl'
      | some x => simp [hf, assoc]
    · have hl : a ∈ l := by simpa [hi] using ha
      cases hf : f i with
      | none => simpa [List.filterMap_cons, hf] using ih hl
      | some x => simpa [List.filterMap_cons, hf, assoc, hi] using ih hl

theorem assoc_expandRow (row : List (ℕ × Action)) (a : ℕ) (h1 : 1 ≤ a) (h2 : a ≤ 42) :
    assoc a (expandRow row) = rowAction a row := by
  have h := assoc_filterMap (fun i => rowAction i row) a ((List.range 42).map (· + 1))
    (by simp only [List.mem_map, List.mem_range]; exact ⟨a - 1, by omega, by omega⟩)
  rw [← h, expandRow, List.filterMap_map]
  rfl

theorem action_eq (s a : ℕ) (h1 : 1 ≤ a) (h2 : a ≤ 42) : action tableData s a = act s a := by
  unfold action act
  simp only [tableData, List.getD_eq_getElem?_getD, List.getElem?_map]
  cases h : actionData[s]? with
  | none => rfl
  | some row => exact assoc_expandRow row a h1 h2

theorem goto_eq (s : ℕ) (x : NT) : goto tableData s x = gotoOn s (ntCode x) := rfl

theorem kindCode_bounds (k : Kind) : 1 ≤ kindCode k ∧ kindCode k ≤ 42 := by cases k <;> decide

theorem action_kind (s : ℕ) (k : Kind) : action tableData s (kindCode k) = act s (kindCode k) :=
  action_eq s _ (kindCode_bounds k).1 (kindCode_bounds k).2

theorem ahead_bounds (ts : List Token) : 1 ≤ ahead ts ∧ ahead ts ≤ 42 := by
  cases ts with
  | nil => decide
  | cons t ts => exact kindCode_bounds t.kind

theorem action_ahead (s : ℕ) (ts : List Token) : action tableData s (ahead ts) = act s (ahead ts) :=
  action_eq s _ (ahead_bounds ts).1 (ahead_bounds ts).2

/-- ply/yacc.py:255-261 `set_defaulted_states`: no state is defaulted. -/
theorem no_defaulted_states : ∀ row ∈ tables.action, ∀ a p, row ≠ [(a, .reduce p)] := by
  have h : ∀ row ∈ tableData.action, row.length ≠ 1 ∨ row = [(42, .accept)] ∨
      (row.head?.map fun e => match e.2 with | .reduce _ => false | _ => true) = some true := by decide +kernel
  intro row hr a p e
  rw [tables_eq] at hr
  subst e
  rcases h _ hr with h | h | h <;> simp at h

attribute [irreducible] act gotoOn

end PythonDice.Yacc
