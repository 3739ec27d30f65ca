import Verif.Proofs.Renumber
import Verif.Proofs.Tables

/-!
# C100: the lookahead of the parser is computed correctly

PLY computes the lookahead of the grammar with the algorithm of DeRemer and Pennello (`digraph`, ply/yacc.py:1266-1298).  The algorithm gives the
least solution of its equations for every finite relation, and with it PLY builds the tables from which the claims about the parser are proved.
-/

namespace PythonDice

open Relation

variable {α β : Type} [DecidableEq α] [DecidableEq β]

/-- `digraph` collects the tokens of everything that can be reached. -/
theorem C100_digraph (X : List α) (R : α → List α) (FP : α → List β) (hR : ∀ x ∈ X, ∀ y ∈ R x, y ∈ X) (hX : X.length < 2 ^ 63 - 1)
    (x : α) (hx : x ∈ X) (a : β) :
    a ∈ Digraph.digraph X R FP x ↔ ∃ y, ReflTransGen (fun u v => v ∈ R u) x y ∧ a ∈ FP y :=
  Digraph.mem_digraph hR hX x hx a

/-- The equations hold: `F(x) = F'(x) ∪ ⋃ {F(y) | x R y}`. -/
theorem C100_solution (X : List α) (R : α → List α) (FP : α → List β) (hR : ∀ x ∈ X, ∀ y ∈ R x, y ∈ X) (hX : X.length < 2 ^ 63 - 1)
    (x : α) (hx : x ∈ X) (a : β) :
    a ∈ Digraph.digraph X R FP x ↔ a ∈ FP x ∨ ∃ y ∈ R x, a ∈ Digraph.digraph X R FP y := by
  rw [C100_digraph X R FP hR hX x hx]
  constructor
  · rintro ⟨z, hz, ha⟩
    rcases ReflTransGen.cases_head hz with rfl | ⟨y, hy, hyz⟩
    · exact Or.inl ha
    · exact Or.inr ⟨y, hy, (C100_digraph X R FP hR hX y (hR x hx y hy) a).2 ⟨z, hyz, ha⟩⟩
  · rintro (ha | ⟨y, hy, ha⟩)
    · exact ⟨x, .refl, ha⟩
    · obtain ⟨z, hz, ha⟩ := (C100_digraph X R FP hR hX y (hR x hx y hy) a).1 ha
      exact ⟨z, .head hy hz, ha⟩

/-- No other solution is smaller. -/
theorem C100_least (X : List α) (R : α → List α) (FP : α → List β) (hR : ∀ x ∈ X, ∀ y ∈ R x, y ∈ X) (hX : X.length < 2 ^ 63 - 1)
    (S : α → β → Prop) (h1 : ∀ x ∈ X, ∀ a ∈ FP x, S x a) (h2 : ∀ x ∈ X, ∀ y ∈ R x, ∀ a, S y a → S x a)
    (x : α) (hx : x ∈ X) (a : β) (ha : a ∈ Digraph.digraph X R FP x) : S x a := by
  obtain ⟨z, hz, hb⟩ := (C100_digraph X R FP hR hX x hx a).1 ha
  clear ha
  induction hz using ReflTransGen.head_induction_on with
  | refl => exact h1 z hx a hb
  | head hxy hyz ih => exact h2 _ hx _ hxy a (ih (hR _ hx _ hxy))

/-- With these sets PLY builds the tables of the parser.  The tables of the model have the same states with other numbers; the state with which
the parser starts is the first one in both. -/
theorem C100_tables : ∃ f : ℕ → ℕ, Function.Injective f ∧ f 0 = 0 ∧
    (∀ s a, Yacc.action (Yacc.plyBuild Yacc.precedence Yacc.rules 200) (f s) a = (Yacc.action Yacc.tables s a).map (Yacc.Action.renumber f)) ∧
    (∀ s x, Yacc.goto (Yacc.plyBuild Yacc.precedence Yacc.rules 200) (f s) x = (Yacc.goto Yacc.tables s x).map f) ∧
    (Yacc.plyBuild Yacc.precedence Yacc.rules 200).action.length = 183 ∧ Yacc.tables.action.length = 183 ∧ ∀ s, f s < 183 ↔ s < 183 :=
  ⟨Yacc.number, PlyParse.number_injective, PlyParse.ply_renumbered.zero, PlyParse.ply_renumbered.lookup, PlyParse.ply_renumbered.goto,
    PlyParse.ply_length, PlyParse.tables_length, PlyParse.number_lt⟩

/-- No list of tokens is shared between transitions when the second pass of `digraph` appends to them: the relation READS of the grammar is empty. -/
theorem C100_unshared (t : Yacc.Trans)
    (ht : t ∈ Yacc.trans (Yacc.plyStates (Yacc.productions Yacc.precedence Yacc.rules) 200)) :
    Yacc.readsRelation (Yacc.plyStates (Yacc.productions Yacc.precedence Yacc.rules) 200) (Yacc.nullable (Yacc.productions Yacc.precedence Yacc.rules)) t = [] :=
  Yacc.reads_nil t ht

/-- Two components that are cycles, one leading to the other. -/
def exampleRel (x : ℕ) : List ℕ := [[1], [2], [0, 3], [4], [3, 5], []].getD x []

/-- Everything in a component gets the same tokens; the second component does not get those of the first. -/
example : (List.range 6).map (Digraph.digraph (List.range 6) exampleRel fun x => [10 * x]) =
    [[0, 10, 20, 30, 40, 50], [0, 10, 20, 30, 40, 50], [0, 10, 20, 30, 40, 50], [30, 40, 50], [30, 40, 50], [50]] := by decide +kernel

example : ∀ x ∈ List.range 6, ∀ y ∈ exampleRel x, y ∈ List.range 6 := by decide

/-- The tokens are those of `C100_digraph`: 5 can be reached from 0. -/
example : 50 ∈ Digraph.digraph (List.range 6) exampleRel (fun x => [10 * x]) 0 :=
  (C100_digraph (List.range 6) exampleRel _ (by decide) (by decide) 0 (by decide) 50).2
    ⟨5, .head (b := 1) (by decide) (.head (b := 2) (by decide) (.head (b := 3) (by decide) (.head (b := 4) (by decide)
      (.head (b := 5) (by decide) .refl)))), by decide⟩

/-- The grammar has transitions. -/
example : (Yacc.trans (Yacc.plyStates (Yacc.productions Yacc.precedence Yacc.rules) 200)).length = 201 := Yacc.trans_length

end PythonDice
