import Verif.Props.Library
import Verif.Props.Derived

/-! Computations that cannot fail, except for the limiter. -/

namespace PythonDice
open Spec

/-- A result, or the `OverflowError` of the limiter. -/
def Fine {β : Type} (e : Except Err β) : Prop := (∃ x, e = .ok x) ∨ e = .error .overflow

namespace Fine
variable {β γ : Type}

theorem ok (x : β) : Fine (.ok x : Except Err β) := .inl ⟨x, rfl⟩

theorem of_eq {e : Except Err β} {x : β} (h : e = .ok x) : Fine e := .inl ⟨x, h⟩

theorem bind {e : Except Err β} {f : β → Except Err γ} (h : Fine e) (hf : ∀ x, e = .ok x → Fine (f x)) : Fine (e >>= f) := by
  rcases h with ⟨x, rfl⟩ | rfl
  · exact hf x rfl
  · exact .inr rfl

theorem probLimit (r : RV ℤ) : Fine (RV.probLimit r) := by
  obtain ⟨h1, h2, h3⟩ := C28_reduction_threshold r
  rcases le_or_gt r.probs.sum RV.sumLimit with h | h
  · exact of_eq (h1 h)
  · rcases lt_or_ge r.probs.sum RV.floatOverflow with h' | h'
    · obtain ⟨_, e⟩ := h2 h h'
      exact of_eq e
    · exact .inr (h3 h')

end Fine

/-- What a computation guarantees when no reduction warning has ever been logged: it returns, unless the limiter overflows, and keeps the
promises of a `Triple`. -/
def Full {β : Type} (I : Settings → Prop) (m : M β) (P : β → Prop) : Prop :=
  Triple I m P ∧ ∀ w, Reachable w → I w.settings → (m w).2.warns = 0 → Fine (m w).1

namespace Full
variable {β γ : Type} {I : Settings → Prop}

theorem pure {x : β} {P : β → Prop} (h : P x) : Full I (pure x : M β) P := ⟨Triple.pure h, fun _ _ _ _ => .ok x⟩

theorem bind {m : M β} {f : β → M γ} {P : β → Prop} {Q : γ → Prop} (hm : Full I m P)
    (hf : ∀ x, P x → Full I (f x) Q) (hf' : ∀ x, Triple I (f x) fun _ => True) : Full I (m >>= f) Q := by
  refine ⟨Triple.bind hm.1 (fun x hx => (hf x hx).1) hf', fun w hw hi h0 => ?_⟩
  obtain ⟨h1, h2, h3⟩ := hm.1 w hw hi
  have h4 := hm.2 w hw hi
  rw [M.bind_apply] at h0 ⊢
  cases h : m w with
  | mk r w' =>
    rw [h] at h1 h2 h3 h4 h0
    cases r with
    | error e =>
      simp only at *
      rcases h4 h0 with ⟨x, hx⟩ | he
      · cases hx
      · cases he; exact .inr rfl
    | ok x =>
      simp only at *
      obtain ⟨hI, h5⟩ := h3 x rfl
      have := (hf' x w' h1 hI).2.1
      exact (hf x (h5 (by omega))).2 w' h1 hI h0

theorem mono {m : M β} {P Q : β → Prop} (hm : Full I m P) (h : ∀ x, P x → Q x) : Full I m Q := ⟨hm.1.mono h, hm.2⟩

theorem map {m : M β} {f : β → γ} {P : β → Prop} {Q : γ → Prop} (hm : Full I m P) (h : ∀ x, P x → Q (f x)) : Full I (f <$> m) Q := by
  rw [← bind_pure_comp]
  exact bind hm (fun x hx => pure (h x hx)) fun x => Triple.pure True.intro

theorem ofSettings {f : Settings → Except Err β} {P : β → Prop} (h : ∀ st x, I st → f st = .ok x → P x) (hf : ∀ st, I st → Fine (f st)) :
    Full I (M.ofSettings f) P :=
  ⟨Triple.ofSettings h, fun w _ hi _ => hf w.settings hi⟩

theorem ofLimited {f : Settings → Except Err (β × Bool)} {P : β → Prop} (h : ∀ st x, I st → f st = .ok (x, false) → P x)
    (hf : ∀ st, I st → Fine (f st)) : Full I (M.ofLimited f) P := by
  refine ⟨Triple.ofLimited h, fun w _ hi _ => ?_⟩
  unfold M.ofLimited
  rcases hf w.settings hi with ⟨⟨x, b⟩, e⟩ | e <;> rw [e]
  · cases b <;> exact .ok x
  · exact .inr rfl

theorem settings {P : Settings → Prop} (h : ∀ s, I s → P s) : Full I M.settings P :=
  ⟨Triple.settings h, fun w _ _ _ => .ok w.settings⟩

theorem forList {f : β → M γ} {P : β → γ → Prop} {l : List β} (h : ∀ x ∈ l, Full I (f x) (P x)) :
    Full I (M.forList f l) fun ys => List.Forall₂ P l ys := by
  induction l with
  | nil => exact pure .nil
  | cons x xs ih =>
    rw [M.forList_cons]
    have ih' := ih fun y hy => h y (List.mem_cons_of_mem _ hy)
    have hx := h x List.mem_cons_self
    exact bind hx (fun y hy => bind ih' (fun ys hys => pure (.cons hy hys)) fun _ => Triple.pure True.intro)
      fun y => Triple.bind' ih'.1.trivial' fun ys => Triple.pure True.intro

end Full

/-! ## Dice -/

namespace Fine

theorem mk'_ok (st : Settings) {vals : List ℤ} {probs : List ℤ} (h1 : vals.length = probs.length) (h2 : ∀ p ∈ probs, 0 ≤ p) :
    ∃ r, RV.mk' st vals probs = .ok r := by
  rw [RV.mk'_eq, if_neg (by simpa using h1), RV.truncated_int]
  simp only
  rw [if_pos (by simpa using h2)]
  split <;> exact ⟨_, rfl⟩

theorem mk' (st : Settings) {vals : List ℤ} {probs : List ℤ} (h1 : vals.length = probs.length) (h2 : ∀ p ∈ probs, 0 ≤ p) :
    Fine (RV.mk' st vals probs) := (mk'_ok st h1 h2).elim fun _ h => .of_eq h

theorem mapVals (st : Settings) {d : RV ℤ} (hd : d.Proper) {op : ℤ → Except Err ℤ} (h : ∀ x ∈ d.vals, ∃ z, op x = .ok z) :
    Fine (RV.mapVals st d op) := by
  obtain ⟨r, hr, _⟩ := mapVals_spec st hd op (fun x => (op x).toOption.getD 0) fun x hx => by
    obtain ⟨z, hz⟩ := h x hx
    rw [hz]; rfl
  exact of_eq hr

theorem binop (st : Settings) (op : BinOp) {a b : RV ℤ} (h : ∀ x ∈ a.vals, ∀ y ∈ b.vals, ∃ z, op.eval x y = .ok z) :
    Fine (RV.binop st op a b) := by
  unfold RV.binop
  rw [RV.convolveRV_ok (F := fun x y => (op.eval x y).toOption.getD 0) fun x hx y hy => by
    obtain ⟨z, hz⟩ := h _ (RV.mem_vals_of_pairs hx) _ (RV.mem_vals_of_pairs hy)
    rw [hz]; rfl]
  obtain ⟨r, hr⟩ := RV.mk'_int_ok st (RV.toTuples (RV.rdictOf (RV.prodPairs a.pairs b.pairs fun x y => (op.eval x y).toOption.getD 0)))
  rw [hr]
  exact probLimit r

theorem contrib {prod : ℕ} {w : ℤ} (hw : 0 ≤ w) {e : RV.Entry ℤ} (he : e.Good) :
    ∃ l, e.contrib prod w = .ok l ∧ ∀ y ∈ l, 0 ≤ y.2 := by
  cases e with
  | blank => exact ⟨_, rfl, by simp⟩
  | num v => exact ⟨_, rfl, by simp; positivity⟩
  | rv d =>
    refine ⟨_, by rw [RV.Entry.contrib, if_neg (by simp [RV.sumProbs, he.2])], fun y hy => ?_⟩
    obtain ⟨p, _, hp⟩ := List.mem_map.1 (List.of_mem_zip hy).2
    rw [← hp]; positivity

theorem fromRvs0 (st : Settings) {rvs : List (RV.Entry ℤ)} {ws : List ℤ} (hlen : ws.length = rvs.length) (hw : ∀ w ∈ ws, 0 ≤ w)
    (hg : ∀ e ∈ rvs, e.Good) : ∃ x, RV.fromRvs0 st rvs (some ws) = .ok x := by
  unfold RV.fromRvs0
  simp only [Option.getD_some]
  by_cases hemp : (rvs.filter fun e => !e.isBlank) = []
  · rw [if_pos hemp]; exact ⟨_, rfl⟩
  rw [if_neg hemp]
  have hl2 : (rvs.filter fun e => !e.isBlank).length = (RV.filterWeights rvs ws).length := by
    clear hg hw hemp
    induction rvs generalizing ws with
    | nil => simp at hlen; subst hlen; rfl
    | cons e rvs ih =>
      cases ws with
      | nil => simp at hlen
      | cons w ws =>
        simp only [List.length_cons, Nat.add_right_cancel_iff] at hlen
        have := ih hlen
        cases hbl : e.isBlank <;> simp_all [RV.filterWeights]
  rw [if_neg (by simpa using hl2)]
  generalize (List.map RV.Entry.probSum (List.filter (fun e => !e.isBlank) rvs)).prod = P
  have hL : ∀ x ∈ RV.live rvs ws, ∃ l, x.1.contrib P x.2 = .ok l ∧ ∀ y ∈ l, 0 ≤ y.2 := by
    intro x hx
    rw [RV.live_eq_filter _ _ hlen.symm, List.mem_filter] at hx
    exact contrib (hw _ (List.of_mem_zip hx.1).2) (hg _ (List.of_mem_zip hx.1).1)
  have hmap : ∃ parts, ((RV.live rvs ws).mapM fun (ew : RV.Entry ℤ × ℤ) => ew.1.contrib P ew.2) = .ok parts ∧
      ∀ y ∈ parts.flatten, 0 ≤ y.2 := by
    generalize RV.live rvs ws = L at hL
    induction L with
    | nil => exact ⟨[], rfl, by simp⟩
    | cons x L ih =>
      obtain ⟨l, hl1, hl2⟩ := hL x List.mem_cons_self
      obtain ⟨ps, hp1, hp2⟩ := ih fun y hy => hL y (List.mem_cons_of_mem _ hy)
      refine ⟨l :: ps, ?_, fun y hy => ?_⟩
      · rw [RV.mapM_ok_iff] at *
        exact .cons hl1 hp1
      · rw [List.flatten_cons, List.mem_append] at hy
        exact hy.elim (hl2 y) (hp2 y)
  obtain ⟨parts, hp, hnn⟩ := hmap
  rw [hp]
  obtain ⟨r, hr⟩ := mk'_ok st (vals := parts.flatten.map (·.1)) (probs := parts.flatten.map (·.2)) (by rw [List.length_map, List.length_map])
    (fun p hp => by
      obtain ⟨y, hy, rfl⟩ := List.mem_map.1 hp
      exact hnn y hy)
  exact ⟨some r, by change (RV.mk' st (parts.flatten.map (·.1)) (parts.flatten.map (·.2))).bind _ = _; rw [hr]; rfl⟩

theorem of_fromRvs0 {st : Settings} {rvs : List (RV.Entry ℤ)} {ws : Option (List ℤ)} (h : ∃ x, RV.fromRvs0 st rvs ws = .ok x) :
    Fine (RV.fromRvs st rvs ws) := by
  obtain ⟨x, hx⟩ := h
  rw [RV.fromRvs_limit, hx]
  cases x with
  | none => exact .ok _
  | some r =>
    change Fine ((RV.probLimit r).bind _)
    exact bind (probLimit r) fun rb _ => .ok _

theorem kth {st : Settings} {r : RV ℤ} (hl : r.vals.length = r.probs.length) (hs : r.vals.Pairwise (· < ·))
    (hz : st.rvIgnoreZeroProbs = true → ∀ p ∈ r.probs, p ≠ 0) (hc : Coprime r.probs) (hm : mass r.pairs ≠ 0) (n : ℕ) (k : ℤ) :
    Fine (RV.kthOrderStatistic st r n k) := by
  have hne : r.vals ≠ [] := by
    intro h0; apply hm; simp [mass, RV.pairs, h0]
  rw [RV.kthOrder_eq (fun _ _ => rfl) hl hs hne hz hc]
  simp only
  split
  · exact .ok _
  rename_i hk
  push Not at hk
  generalize RV.ascRank st n k = k' at hk
  obtain ⟨i, rfl⟩ : ∃ i : ℕ, k' = i + 1 := ⟨(k' - 1).toNat, by omega⟩
  have e : n - ((i : ℤ) + 1).toNat + 1 = n - i := by omega
  rw [e]
  refine bind (mk' st (by simp) fun p hp => ?_) fun r _ => bind (probLimit r) fun rb _ => .ok _
  obtain ⟨v, _, rfl⟩ := List.mem_map.1 hp
  have h1 := RV.kthWeight_eq r hl hm n i (by omega) 0 v
  have h2 : (0 : ℚ) ≤ RV.kthWeight r n (n - i) v := by
    rw [h1]
    apply mul_nonneg
    · apply ExN_nonneg; intro xs; split <;> norm_num
    · exact pow_nonneg (mass_nonneg _) _
  exact_mod_cast h2

end Fine

theorem fine_addM (a b : RV ℤ) (w : World) : Fine (addM a b w).1 := by
  unfold addM M.ofLimited
  simp only
  rcases Fine.binop w.settings .add (a := a) (b := b) (fun x _ y _ => ⟨x + y, rfl⟩) with ⟨⟨x, c⟩, e⟩ | e <;> rw [e]
  · cases c <;> exact .ok x
  · exact .inr rfl

theorem fine_bind {β γ : Type} {m : M β} {f : β → M γ} {w : World} (h : Fine (m w).1) (hf : ∀ x w', Fine (f x w').1) : Fine ((m >>= f) w).1 := by
  rw [M.bind_apply]
  cases hm : m w with
  | mk r w' =>
    rw [hm] at h
    rcases h with ⟨x, e⟩ | e
    · cases e; exact hf x w'
    · cases e; exact .inr rfl

theorem fine_rollNat (fuel n : ℕ) (d : RV ℤ) (hf : n < fuel) (w : World) : Fine (rollNat fuel n d w).1 := by
  induction fuel generalizing n w with
  | zero => omega
  | succ fuel ih =>
    unfold rollNat
    by_cases h0 : n = 0
    · subst h0
      rw [if_pos rfl]
      exact .of_eq (fromConst_eq w.settings 0)
    rw [if_neg h0]
    by_cases h1 : n = 1
    · rw [if_pos h1]
      exact .ok d
    rw [if_neg h1]
    refine fine_bind (.ok _) fun o w' => ?_
    cases o with
    | some r => exact .ok r
    | none =>
      refine fine_bind (ih (n / 2) (by omega) w') fun half w1 => fine_bind (fine_addM half half w1) fun full w2 => fine_bind ?_ fun x w3 =>
        fine_bind (.ok _) fun _ _ => .ok _
      unfold addOdd
      split
      · exact fine_addM _ _ _
      · exact .ok _

theorem full_rollInt {I : Settings → Prop} (n : ℤ) (d : RV ℤ) (hd : d.Proper) : Full I (rollInt n d) fun r => RollIntOk n d r := by
  refine ⟨triple_rollInt n d hd, fun w hw _ h0 => ?_⟩
  have hr := fine_rollNat (n.natAbs + 1) n.natAbs d (by omega) w
  have hs := rollNat_spec (n.natAbs + 1) n.natAbs d (by omega) w hw.memoOk
  unfold rollInt at h0 ⊢
  split
  · rename_i hn
    rw [if_pos hn] at h0
    rw [M.bind_apply] at h0 ⊢
    cases e : rollNat (n.natAbs + 1) n.natAbs d w with
    | mk r w' =>
      rw [e] at hr hs h0
      rcases hr with ⟨x, e⟩ | e
      · cases e
        obtain ⟨q, hq, _⟩ := neg_ok w'.settings (hs.law hd x rfl (.inl h0)).proper
        exact .of_eq hq
      · cases e; exact .inr rfl
  · exact hr

end PythonDice
