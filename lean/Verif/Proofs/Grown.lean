import Verif.Model.Roll
import Verif.Spec.Cost
import Verif.Proofs.World

/-! How the table of remembered rolls grows. -/

namespace Spec

variable {κ β : Type}

theorem Grown.refl (l : List (κ × β)) : Grown l l := ⟨[], rfl, List.nodup_nil, by simp⟩

theorem Grown.trans {a b c : List (κ × β)} (h : Grown a b) (h' : Grown b c) : Grown a c := by
  obtain ⟨x, rfl, hx, hxa⟩ := h
  obtain ⟨y, rfl, hy, hyb⟩ := h'
  refine ⟨y ++ x, by simp, ?_, ?_⟩
  · rw [List.map_append, List.nodup_append]
    refine ⟨hy, hx, fun k hk k' hk' e => ?_⟩
    subst e
    exact hyb k hk (by rw [List.map_append]; exact List.mem_append_left _ hk')
  · intro k hk
    rw [List.map_append, List.mem_append] at hk
    rcases hk with hk | hk
    · exact fun h => hyb k hk (by rw [List.map_append]; exact List.mem_append_right _ h)
    · exact hxa k hk

theorem Grown.nodup {a b : List (κ × β)} (h : Grown a b) (ha : (a.map (·.1)).Nodup) : (b.map (·.1)).Nodup := by
  obtain ⟨x, rfl, hx, hxa⟩ := h
  rw [List.map_append, List.nodup_append]
  refine ⟨hx, ha, fun k hk k' hk' e => hxa k hk (e ▸ hk')⟩

theorem lookup_none_iff [BEq κ] [LawfulBEq κ] (l : List (κ × β)) (k : κ) : l.lookup k = none ↔ k ∉ l.map (·.1) := by
  induction l with
  | nil => simp
  | cons x l ih =>
    obtain ⟨k', v⟩ := x
    rw [List.lookup_cons]
    by_cases e : k = k'
    · subst e; simp
    · have : (k == k') = false := by simpa using e
      rw [this]
      simp [ih, e]

theorem Grown.lookup [BEq κ] [LawfulBEq κ] {a b : List (κ × β)} (h : Grown a b) {k : κ} {v : β} (hk : a.lookup k = some v) :
    b.lookup k = some v := by
  obtain ⟨x, rfl, -, hxa⟩ := h
  induction x with
  | nil => exact hk
  | cons p x ih =>
    obtain ⟨k', v'⟩ := p
    rw [List.cons_append, List.lookup_cons]
    have : k ≠ k' := by
      rintro rfl
      have := hxa k (by simp)
      rw [← lookup_none_iff, hk] at this
      cases this
    have e : (k == k') = false := by simpa using this
    rw [e]
    exact ih fun j hj => hxa j (by simp only [List.map_cons]; exact List.mem_cons_of_mem _ hj)

theorem halvings_eq (n : ℕ) : halvings n = if 2 ≤ n then n :: halvings (n / 2) else [] := by
  rw [halvings]
  split <;> rfl

theorem halvings_le (n : ℕ) : ∀ k ∈ halvings n, 2 ≤ k ∧ k ≤ n := by
  induction n using Nat.strong_induction_on with
  | _ n ih =>
    rw [halvings_eq]
    split
    · intro k hk
      rcases List.mem_cons.1 hk with rfl | hk
      · omega
      · have := ih (n / 2) (by omega) k hk
        omega
    · simp

theorem halvings_nodup (n : ℕ) : (halvings n).Nodup := by
  induction n using Nat.strong_induction_on with
  | _ n ih =>
    rw [halvings_eq]
    split
    · refine List.nodup_cons.2 ⟨fun h => ?_, ih _ (by omega)⟩
      have := halvings_le _ _ h
      omega
    · exact List.nodup_nil

theorem halvings_length (n : ℕ) : (halvings n).length = Nat.log 2 n := by
  induction n using Nat.strong_induction_on with
  | _ n ih =>
    rw [halvings_eq]
    split
    · rename_i h
      rw [List.length_cons, ih _ (by omega), Nat.log_div_base]
      have := Nat.log_pos (b := 2) (by norm_num) h
      omega
    · rename_i h
      rw [Nat.log_of_lt (by omega)]
      rfl

end Spec

namespace PythonDice
open Spec

/-- The key of a remembered roll. -/
abbrev rollKey (d : RV ℤ) (k : ℕ) : ℕ × List ℤ × List ℕ := (k, d.vals, d.probs)

theorem addM_memo (a b : RV ℤ) (w : World) : (addM a b w).2.memo = w.memo := by
  unfold addM M.ofLimited
  dsimp only
  rcases RV.binop w.settings .add a b with e | ⟨x, _ | _⟩ <;> rfl

theorem addOdd_memo (n : ℕ) (a b : RV ℤ) (w : World) : (addOdd n a b w).2.memo = w.memo := by
  unfold addOdd
  split
  · exact addM_memo _ _ _
  · rfl

/-- What a roll adds to the table: entries for a run of halvings, in order, beginning with the number of dice if all went well. -/
theorem rollNat_added (fuel n : ℕ) (d : RV ℤ) (w : World) :
    ∃ added : List ((ℕ × List ℤ × List ℕ) × RV ℤ), (rollNat fuel n d w).2.memo = added ++ w.memo ∧
      added.map (·.1) <:+: (halvings n).map (rollKey d) ∧
      (∀ k ∈ added.map (·.1), w.memo.lookup k = none) ∧
      ∀ r, (rollNat fuel n d w).1 = .ok r → added.map (·.1) <+: (halvings n).map (rollKey d) ∧
        (2 ≤ n → (added ++ w.memo).lookup (rollKey d n) = some r) := by
  induction fuel generalizing n w with
  | zero => exact ⟨[], rfl, List.nil_infix, by simp, fun r h => by cases h⟩
  | succ fuel ih =>
    unfold rollNat
    split
    · exact ⟨[], rfl, List.nil_infix, by simp, fun r h => ⟨List.nil_prefix, by omega⟩⟩
    · split
      · exact ⟨[], rfl, List.nil_infix, by simp, fun r h => ⟨List.nil_prefix, by omega⟩⟩
      · rename_i h0 h1
        rw [M.bind_apply]
        have hg : memoGet n d w = (.ok (w.memo.lookup (rollKey d n)), w) := rfl
        rw [hg]
        dsimp only
        have h2 : 2 ≤ n := by omega
        have hh : halvings n = n :: halvings (n / 2) := by rw [halvings_eq, if_pos h2]
        cases hl : w.memo.lookup (rollKey d n) with
        | some r0 =>
          refine ⟨[], rfl, List.nil_infix, by simp, fun r h => ⟨List.nil_prefix, fun _ => ?_⟩⟩
          cases h
          exact hl
        | none =>
          dsimp only
          obtain ⟨added, e, hin, hno, hok⟩ := ih (n / 2) w
          have hin' : added.map (·.1) <:+: (halvings n).map (rollKey d) := by
            rw [hh, List.map_cons]
            exact hin.trans (List.suffix_cons _ _).isInfix
          rw [M.bind_apply]
          revert e hok
          rcases rollNat fuel (n / 2) d w with ⟨half | half, w1⟩ <;> intro e hok
          · exact ⟨added, e, hin', hno, fun r h => by cases h⟩
          dsimp only at e hok ⊢
          rw [M.bind_apply]
          have ea := addM_memo half half w1
          revert ea
          rcases addM half half w1 with ⟨full | full, w2⟩ <;> intro ea <;> dsimp only at ea ⊢
          · exact ⟨added, by rw [ea, e], hin', hno, fun r h => by cases h⟩
          rw [M.bind_apply]
          have eo := addOdd_memo n full d w2
          revert eo
          rcases addOdd n full d w2 with ⟨full' | full', w3⟩ <;> intro eo <;> dsimp only at eo ⊢
          · exact ⟨added, by rw [eo, ea, e], hin', hno, fun r h => by cases h⟩
          have hpre : (rollKey d n :: added.map (·.1)) <+: (halvings n).map (rollKey d) := by
            rw [hh, List.map_cons]
            exact List.cons_prefix_cons.2 ⟨rfl, (hok half rfl).1⟩
          refine ⟨(rollKey d n, full'.setSource n d) :: added, ?_, hpre.isInfix, ?_, ?_⟩
          · change (rollKey d n, full'.setSource n d) :: w3.memo = _
            rw [eo, ea, e]; rfl
          · intro k hk
            rcases List.mem_cons.1 hk with rfl | hk
            · exact hl
            · exact hno k hk
          · intro r h
            cases h
            refine ⟨hpre, fun _ => ?_⟩
            rw [List.cons_append, List.lookup_cons]
            simp

theorem rollKey_injective (d : RV ℤ) : Function.Injective (rollKey d) := fun a b h => (Prod.mk.injEq _ _ _ _ ▸ h).1

theorem rollNat_grown (fuel n : ℕ) (d : RV ℤ) (w : World) : Grown w.memo (rollNat fuel n d w).2.memo := by
  obtain ⟨added, e, hin, hno, -⟩ := rollNat_added fuel n d w
  refine ⟨added, e, ?_, fun k hk => (lookup_none_iff _ _).1 (hno k hk)⟩
  exact ((halvings_nodup n).map (rollKey_injective d)).sublist hin.sublist

end PythonDice
