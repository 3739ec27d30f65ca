import Mathlib.Logic.Relation
import Mathlib.Data.Finset.Card
import Mathlib.Data.Finset.Dedup
import Verif.Model.Digraph

/-!
# The algorithm of DeRemer and Pennello is correct
-/

namespace PythonDice.Digraph

open Relation

set_option linter.unusedSectionVars false

variable {α β : Type} [DecidableEq α] [DecidableEq β]

theorem mem_merge (f g : List β) (a : β) : a ∈ merge f g ↔ a ∈ f ∨ a ∈ g := by
  unfold merge
  induction g generalizing f with
  | nil => simp
  | cons b g ih =>
    rw [List.foldl_cons, ih, List.mem_cons]
    split_ifs with h
    · constructor
      · rintro (h1 | h1)
        · exact Or.inl h1
        · exact Or.inr (Or.inr h1)
      · rintro (h1 | rfl | h1)
        · exact Or.inl h1
        · exact Or.inl h
        · exact Or.inr h1
    · rw [List.mem_append, List.mem_singleton, or_assoc]

/-- The place in the stack, counted from the bottom. -/
def place : List α → α → ℕ
  | [], _ => 0
  | e :: st, v => if v = e then st.length + 1 else place st v

theorem place_le (st : List α) (v : α) : place st v ≤ st.length := by
  induction st with
  | nil => exact le_rfl
  | cons e st ih =>
    rw [place, List.length_cons]
    split_ifs <;> omega

theorem place_pos {st : List α} {v : α} : 0 < place st v ↔ v ∈ st := by
  induction st with
  | nil => simp [place]
  | cons e st ih =>
    rw [place, List.mem_cons]
    split_ifs with h
    · simp [h]
    · simp [h, ih]

theorem place_append {seg st : List α} {v : α} (h : v ∉ seg) : place (seg ++ st) v = place st v := by
  induction seg with
  | nil => rfl
  | cons e seg ih =>
    rw [List.mem_cons, not_or] at h
    rw [List.cons_append, place, if_neg h.1, ih h.2]

theorem place_seg {seg st : List α} {v : α} (h : v ∈ seg) : st.length < place (seg ++ st) v := by
  induction seg with
  | nil => exact absurd h List.not_mem_nil
  | cons e seg ih =>
    rw [List.cons_append, place]
    split_ifs with he
    · rw [List.length_append]
      omega
    · exact ih ((List.mem_cons.1 h).resolve_left he)

section
variable (R : α → List α) (FP : α → List β)

/-- The relation. -/
def Rel (u v : α) : Prop := v ∈ R u

/-- Reachable. -/
abbrev Reach : α → α → Prop := ReflTransGen (Rel R)

/-- The least solution. -/
def Full (v : α) (a : β) : Prop := ∃ z, Reach R v z ∧ a ∈ FP z

/-- What holds between the steps. -/
structure Inv (X : List α) (s : St α β) : Prop where
  mem : ∀ v, v ∈ s.stack ↔ 0 < s.N v ∧ s.N v < MAXINT
  small : ∀ v, s.N v ≤ MAXINT
  low : ∀ v ∈ s.stack, s.N v ≤ place s.stack v ∧ ∃ w ∈ s.stack, place s.stack w = s.N v ∧ Reach R v w
  done : ∀ v, s.N v = MAXINT → (∀ y ∈ R v, s.N y = MAXINT) ∧ ∀ a, Full R FP v a → a ∈ s.F v
  upper : ∀ v a, a ∈ s.F v → Full R FP v a
  inX : ∀ v ∈ s.stack, v ∈ X
  nodup : s.stack.Nodup

/-- What `x` knows of a successor `y` of something found since `s`. -/
def Knows (s t : St α β) (x y : α) : Prop :=
  t.N y ≠ 0 ∧ (y ∈ s.stack → t.N x ≤ s.N y) ∧ (s.N y ≠ 0 → ∀ a ∈ s.F y, a ∈ t.F x)

/-- The effect of `traverse`. -/
structure Post (X : List α) (x : α) (s t : St α β) : Prop where
  inv : Inv R FP X t
  stack : ∃ seg, t.stack = seg ++ s.stack ∧ ∀ v ∈ seg, s.N v = 0 ∧ t.N v < place t.stack v
  frame : ∀ v, s.N v ≠ 0 → t.N v = s.N v ∧ t.F v = s.F v
  vis : t.N x ≠ 0
  new : ∀ v, s.N v = 0 → t.N v ≠ 0 → (∀ a ∈ FP v, a ∈ t.F x) ∧ ∀ y ∈ R v, Knows s t x y

/-- In the loop of `traverse`, after the successors in `l`. -/
structure Loop (X : List α) (x : α) (s t : St α β) (l : List α) : Prop where
  inv : Inv R FP X t
  stack : ∃ seg, t.stack = seg ++ x :: s.stack ∧ ∀ v ∈ seg, s.N v = 0 ∧ v ≠ x ∧ t.N v < place t.stack v
  frame : ∀ v, s.N v ≠ 0 → t.N v = s.N v ∧ t.F v = s.F v
  self : ∀ a ∈ FP x, a ∈ t.F x
  new : ∀ v, v ≠ x → s.N v = 0 → t.N v ≠ 0 → (∀ a ∈ FP v, a ∈ t.F x) ∧ ∀ y ∈ R v, Knows s t x y
  proc : ∀ y ∈ l, Knows s t x y

end

variable {R : α → List α} {FP : α → List β} {X : List α}

theorem Full.step {u v : α} {a : β} (h : v ∈ R u) (hv : Full R FP v a) : Full R FP u a := by
  obtain ⟨z, hz, ha⟩ := hv
  exact ⟨z, .head h hz, ha⟩

theorem Full.reach {u v : α} {a : β} (h : Reach R u v) (hv : Full R FP v a) : Full R FP u a := by
  obtain ⟨z, hz, ha⟩ := hv
  exact ⟨z, h.trans hz, ha⟩

theorem Inv.length_lt {s : St α β} (h : Inv R FP X s) (hX : X.length < MAXINT) : s.stack.length < MAXINT :=
  lt_of_le_of_lt (List.Subperm.length_le (List.subperm_of_subset h.nodup fun v hv => h.inX v hv)) hX

theorem Inv.finished {s : St α β} (h : Inv R FP X s) {v : α} (h0 : s.N v ≠ 0) (hv : v ∉ s.stack) : s.N v = MAXINT := by
  rw [h.mem] at hv
  have := h.small v
  omega

theorem Inv.not_mem {s : St α β} (h : Inv R FP X s) {v : α} (h0 : s.N v = 0) : v ∉ s.stack := by
  rw [h.mem]
  omega

theorem maxint_pos : 0 < MAXINT := by decide

/-- Pushing. -/
theorem loop_push {s : St α β} {x : α} (h : Inv R FP X s) (hx : x ∈ X) (h0 : s.N x = 0) (hX : X.length < MAXINT) :
    Loop R FP X x s (push FP x s) [] := by
  have hxs : x ∉ s.stack := h.not_mem h0
  have hnd : (x :: s.stack).Nodup := List.nodup_cons.2 ⟨hxs, h.nodup⟩
  have hlen : s.stack.length + 1 < MAXINT :=
    lt_of_le_of_lt (List.Subperm.length_le (List.subperm_of_subset hnd fun v hv =>
      (List.mem_cons.1 hv).elim (fun e => e ▸ hx) (h.inX v))) hX
  have hne : ∀ {v}, s.N v ≠ 0 → v ≠ x := fun hv e => hv (e ▸ h0)
  have hN : ∀ v, v ≠ x → (push FP x s).N v = s.N v := fun v hv => Function.update_of_ne hv _ _
  have hF : ∀ v, v ≠ x → (push FP x s).F v = s.F v := fun v hv => Function.update_of_ne hv _ _
  have hNx : (push FP x s).N x = s.stack.length + 1 := Function.update_self ..
  have hFx : (push FP x s).F x = FP x := Function.update_self ..
  refine ⟨⟨?_, ?_, ?_, ?_, ?_, ?_, hnd⟩, ⟨[], rfl, fun v hv => absurd hv List.not_mem_nil⟩, ?_, ?_, ?_, ?_⟩
  · intro v
    show v ∈ x :: s.stack ↔ _
    rw [List.mem_cons]
    by_cases hv : v = x
    · subst hv
      rw [hNx]
      exact ⟨fun _ => ⟨by omega, hlen⟩, fun _ => Or.inl rfl⟩
    · rw [hN v hv, ← h.mem]
      simp [hv]
  · intro v
    by_cases hv : v = x
    · subst hv
      rw [hNx]
      omega
    · rw [hN v hv]
      exact h.small v
  · intro v hv
    have hv' : v ∈ x :: s.stack := hv
    show _ ≤ place (x :: s.stack) v ∧ ∃ w ∈ x :: s.stack, place (x :: s.stack) w = _ ∧ _
    by_cases hvx : v = x
    · subst hvx
      rw [hNx, place, if_pos rfl]
      exact ⟨le_rfl, v, hv', by rw [place, if_pos rfl], .refl⟩
    · rw [hN v hvx, place, if_neg hvx]
      obtain ⟨h1, w, hw, h2, h3⟩ := h.low v ((List.mem_cons.1 hv').resolve_left hvx)
      refine ⟨h1, w, List.mem_cons_of_mem _ hw, ?_, h3⟩
      have hwx : w ≠ x := by
        rintro rfl
        exact hxs hw
      rw [place, if_neg hwx, h2]
  · intro v hv
    have hvx : v ≠ x := by
      rintro rfl
      rw [hNx] at hv
      omega
    rw [hN v hvx] at hv
    obtain ⟨h1, h2⟩ := h.done v hv
    refine ⟨fun y hy => ?_, fun a ha => by rw [hF v hvx]; exact h2 a ha⟩
    have hy' := h1 y hy
    rw [hN y (hne (by have := maxint_pos; omega)), hy']
  · intro v a ha
    by_cases hvx : v = x
    · subst hvx
      rw [hFx] at ha
      exact ⟨v, .refl, ha⟩
    · rw [hF v hvx] at ha
      exact h.upper v a ha
  · intro v hv
    exact (List.mem_cons.1 hv).elim (fun e => e ▸ hx) (h.inX v)
  · exact fun v hv => ⟨hN v (hne hv), hF v (hne hv)⟩
  · intro a ha
    rw [hFx]
    exact ha
  · intro v hv h1 h2
    rw [hN v hv] at h2
    exact absurd h1 h2
  · exact fun y hy => absurd hy List.not_mem_nil

/-- Absorbing a successor that has been visited. -/
theorem Inv.absorb {t : St α β} {x y : α} (h : Inv R FP X t) (hx : x ∈ t.stack) (hy : y ∈ R x) (hy0 : t.N y ≠ 0) :
    Inv R FP X (absorb x y t) := by
  have hN : ∀ v, v ≠ x → (Digraph.absorb x y t).N v = t.N v := fun v hv => Function.update_of_ne hv _ _
  have hF : ∀ v, v ≠ x → (Digraph.absorb x y t).F v = t.F v := fun v hv => Function.update_of_ne hv _ _
  have hNx : (Digraph.absorb x y t).N x = min (t.N x) (t.N y) := Function.update_self ..
  have hFx : (Digraph.absorb x y t).F x = merge (t.F x) (t.F y) := Function.update_self ..
  have hx' := (h.mem x).1 hx
  refine ⟨?_, ?_, ?_, ?_, ?_, h.inX, h.nodup⟩
  · intro v
    show v ∈ t.stack ↔ _
    by_cases hv : v = x
    · subst hv
      rw [hNx]
      exact ⟨fun _ => ⟨by omega, by omega⟩, fun _ => hx⟩
    · rw [hN v hv]
      exact h.mem v
  · intro v
    by_cases hv : v = x
    · subst hv
      rw [hNx]
      omega
    · rw [hN v hv]
      exact h.small v
  · intro v hv
    show _ ≤ place t.stack v ∧ ∃ w ∈ t.stack, place t.stack w = _ ∧ _
    by_cases hvx : v = x
    · subst hvx
      rw [hNx]
      obtain ⟨h1, w, hw, h2, h3⟩ := h.low v hx
      refine ⟨by omega, ?_⟩
      by_cases hle : t.N v ≤ t.N y
      · rw [min_eq_left hle]
        exact ⟨w, hw, h2, h3⟩
      · rw [min_eq_right (by omega)]
        have hys : y ∈ t.stack := by
          by_contra hn
          have := h.finished hy0 hn
          omega
        obtain ⟨_, w', hw', h2', h3'⟩ := h.low y hys
        exact ⟨w', hw', h2', .head hy h3'⟩
    · rw [hN v hvx]
      exact h.low v hv
  · intro v hv
    have hvx : v ≠ x := by
      rintro rfl
      rw [hNx] at hv
      omega
    rw [hN v hvx] at hv
    obtain ⟨h1, h2⟩ := h.done v hv
    refine ⟨fun z hz => ?_, fun a ha => by rw [hF v hvx]; exact h2 a ha⟩
    have hz' := h1 z hz
    rw [hN z, hz']
    rintro rfl
    omega
  · intro v a ha
    by_cases hvx : v = x
    · subst hvx
      rw [hFx, mem_merge] at ha
      exact ha.elim (h.upper v a) fun ha => (h.upper y a ha).step hy
    · rw [hF v hvx] at ha
      exact h.upper v a ha

theorem Loop.mem {x : α} {s t : St α β} {l : List α} (h : Loop R FP X x s t l) : x ∈ t.stack := by
  obtain ⟨seg, hseg, _⟩ := h.stack
  rw [hseg]
  simp

theorem Loop.ne_zero {x : α} {s t : St α β} {l : List α} (h : Loop R FP X x s t l) : t.N x ≠ 0 := by
  have := (h.inv.mem x).1 h.mem
  omega

/-- What is known stays known. -/
theorem Knows.mono {s t t' : St α β} {x y : α} (h : Knows s t x y) (h0 : t.N y ≠ 0 → t'.N y ≠ 0) (hN : t'.N x ≤ t.N x)
    (hF : ∀ a ∈ t.F x, a ∈ t'.F x) : Knows s t' x y :=
  ⟨h0 h.1, fun hy => hN.trans (h.2.1 hy), fun hy a ha => hF a (h.2.2 hy a ha)⟩

/-- Absorbing in the loop. -/
theorem Loop.absorb {x y : α} {s t : St α β} {l : List α} (h : Loop R FP X x s t l) (hs0 : ∀ v ∈ s.stack, s.N v ≠ 0) (h0 : s.N x = 0) (hy : y ∈ R x)
    (hy0 : t.N y ≠ 0) : Loop R FP X x s (absorb x y t) (l ++ [y]) := by
  have hN : ∀ v, v ≠ x → (Digraph.absorb x y t).N v = t.N v := fun v hv => Function.update_of_ne hv _ _
  have hF : ∀ v, v ≠ x → (Digraph.absorb x y t).F v = t.F v := fun v hv => Function.update_of_ne hv _ _
  have hNx : (Digraph.absorb x y t).N x = min (t.N x) (t.N y) := Function.update_self ..
  have hFx : (Digraph.absorb x y t).F x = merge (t.F x) (t.F y) := Function.update_self ..
  have hne : ∀ {v}, s.N v ≠ 0 → v ≠ x := fun hv e => hv (e ▸ h0)
  have hx0 := h.ne_zero
  have hz : ∀ v, t.N v ≠ 0 → (Digraph.absorb x y t).N v ≠ 0 := by
    intro v hv
    by_cases hvx : v = x
    · subst hvx
      rw [hNx]
      omega
    · rw [hN v hvx]
      exact hv
  have hz' : ∀ v, v ≠ x → (Digraph.absorb x y t).N v ≠ 0 → t.N v ≠ 0 := fun v hv h1 => by rwa [hN v hv] at h1
  have hmono : ∀ {z}, Knows s t x z → Knows s (Digraph.absorb x y t) x z := fun {z} hk =>
    hk.mono (hz z) (by rw [hNx]; exact min_le_left _ _) fun a ha => by rw [hFx, mem_merge]; exact Or.inl ha
  refine ⟨h.inv.absorb h.mem hy hy0, ?_, ?_, ?_, ?_, ?_⟩
  · obtain ⟨seg, h1, h2⟩ := h.stack
    refine ⟨seg, h1, fun v hv => ?_⟩
    obtain ⟨h3, h4, h5⟩ := h2 v hv
    rw [hN v h4]
    exact ⟨h3, h4, h5⟩
  · intro v hv
    rw [hN v (hne hv), hF v (hne hv)]
    exact h.frame v hv
  · intro a ha
    rw [hFx, mem_merge]
    exact Or.inl (h.self a ha)
  · intro v hv h1 h2
    obtain ⟨h3, h4⟩ := h.new v hv h1 (hz' v hv h2)
    refine ⟨fun a ha => ?_, fun z hz => hmono (h4 z hz)⟩
    rw [hFx, mem_merge]
    exact Or.inl (h3 a ha)
  · intro z hz1
    rw [List.mem_append, List.mem_singleton] at hz1
    rcases hz1 with hz1 | rfl
    · exact hmono (h.proc z hz1)
    · refine ⟨hz z hy0, fun hs => ?_, fun hs a ha => ?_⟩
      · rw [hNx, ← (h.frame z (hs0 z hs)).1]
        exact min_le_right _ _
      · rw [hFx, mem_merge, (h.frame z hs).2]
        exact Or.inr ha

/-- A successor that is traversed, in the loop. -/
theorem Loop.traverse {x y : α} {s t t' : St α β} {l : List α} (h : Loop R FP X x s t l) (hs0 : ∀ v ∈ s.stack, s.N v ≠ 0) (h0 : s.N x = 0)
    (hp : Post R FP X y t t') (hy : y ∈ R x) : Loop R FP X x s (Digraph.absorb x y t') (l ++ [y]) := by
  have hx0 := h.ne_zero
  have hyx : ∀ {v}, s.N v ≠ 0 → v ≠ x := fun hv e => hv (e ▸ h0)
  have ht : ∀ {v}, s.N v ≠ 0 → t.N v ≠ 0 := fun {v} hv => by rw [(h.frame v hv).1]; exact hv
  have ht' : ∀ {v}, t.N v ≠ 0 → t'.N v ≠ 0 := fun {v} hv => by rw [(hp.frame v hv).1]; exact hv
  have hN : ∀ v, v ≠ x → (Digraph.absorb x y t').N v = t'.N v := fun v hv => Function.update_of_ne hv _ _
  have hF : ∀ v, v ≠ x → (Digraph.absorb x y t').F v = t'.F v := fun v hv => Function.update_of_ne hv _ _
  have hNx : (Digraph.absorb x y t').N x = min (t.N x) (t'.N y) := by
    rw [← (hp.frame x hx0).1]
    exact Function.update_self ..
  have hFx : (Digraph.absorb x y t').F x = merge (t.F x) (t'.F y) := by
    rw [← (hp.frame x hx0).2]
    exact Function.update_self ..
  have hz : ∀ v, t'.N v ≠ 0 → (Digraph.absorb x y t').N v ≠ 0 := by
    intro v hv
    by_cases hvx : v = x
    · subst hvx
      rw [hNx]
      have := hp.vis
      omega
    · rw [hN v hvx]
      exact hv
  have hmono : ∀ {z}, Knows s t x z → Knows s (Digraph.absorb x y t') x z := fun {z} hk =>
    hk.mono (fun h1 => hz z (ht' h1)) (by rw [hNx]; exact min_le_left _ _) fun a ha => by rw [hFx, mem_merge]; exact Or.inl ha
  obtain ⟨seg, hseg, hseg'⟩ := h.stack
  obtain ⟨seg2, hseg2, hseg2'⟩ := hp.stack
  have hsub : ∀ v ∈ s.stack, v ∈ t.stack := fun v hv => by rw [hseg]; simp [hv]
  have hxt : x ∈ t'.stack := by
    rw [hseg2]
    exact List.mem_append_right _ h.mem
  -- what `y` knows about a successor of something new
  have hnew : ∀ {z}, Knows t t' y z → Knows s (Digraph.absorb x y t') x z := by
    intro z hk
    refine ⟨hz z hk.1, fun hzs => ?_, fun hzs a ha => ?_⟩
    · rw [hNx, ← (h.frame z (hs0 z hzs)).1]
      exact (min_le_right _ _).trans (hk.2.1 (hsub z hzs))
    · rw [hFx, mem_merge]
      exact Or.inr (hk.2.2 (ht hzs) a (by rw [(h.frame z hzs).2]; exact ha))
  refine ⟨hp.inv.absorb hxt hy hp.vis, ?_, ?_, ?_, ?_, ?_⟩
  · refine ⟨seg2 ++ seg, ?_, fun v hv => ?_⟩
    · show t'.stack = _
      rw [hseg2, hseg, List.append_assoc]
    · show _ ∧ _ ∧ _ < place t'.stack v
      rw [List.mem_append] at hv
      rcases hv with hv | hv
      · obtain ⟨h1, h2⟩ := hseg2' v hv
        have hvx : v ≠ x := fun e => hx0 (e ▸ h1)
        have hvs : s.N v = 0 := by
          by_contra hn
          exact ht hn h1
        rw [hN v hvx]
        exact ⟨hvs, hvx, h2⟩
      · obtain ⟨h1, h2, h3⟩ := hseg' v hv
        have hvt : v ∈ t.stack := by rw [hseg]; simp [hv]
        have hvn : t.N v ≠ 0 := by
          have := (h.inv.mem v).1 hvt
          omega
        have hv2 : v ∉ seg2 := fun e => hvn (hseg2' v e).1
        rw [hN v h2, (hp.frame v hvn).1, hseg2, place_append hv2]
        exact ⟨h1, h2, h3⟩
  · intro v hv
    rw [hN v (hyx hv), hF v (hyx hv), (hp.frame v (ht hv)).1, (hp.frame v (ht hv)).2]
    exact h.frame v hv
  · intro a ha
    rw [hFx, mem_merge]
    exact Or.inl (h.self a ha)
  · intro v hv h1 h2
    rw [hN v hv] at h2
    by_cases hvt : t.N v = 0
    · obtain ⟨h3, h4⟩ := hp.new v hvt h2
      refine ⟨fun a ha => ?_, fun z hzv => hnew (h4 z hzv)⟩
      rw [hFx, mem_merge]
      exact Or.inr (h3 a ha)
    · obtain ⟨h3, h4⟩ := h.new v hv h1 hvt
      refine ⟨fun a ha => ?_, fun z hz => hmono (h4 z hz)⟩
      rw [hFx, mem_merge]
      exact Or.inl (h3 a ha)
  · intro z hz1
    rw [List.mem_append, List.mem_singleton] at hz1
    rcases hz1 with hz1 | rfl
    · exact hmono (h.proc z hz1)
    · refine ⟨hz z hp.vis, fun hs => ?_, fun hs a ha => ?_⟩
      · rw [hNx, ← (h.frame z (hs0 z hs)).1, ← (hp.frame z (ht (hs0 z hs))).1]
        exact min_le_right _ _
      · rw [hFx, mem_merge, (hp.frame z (ht hs)).2, (h.frame z hs).2]
        exact Or.inr ha

/-- The effect of popping. -/
theorem pop_eq (x : α) (f : List β) (st : List α) : ∀ (seg : List α) (N : α → ℕ) (F : α → List β), x ∉ seg →
    (pop x f (seg ++ x :: st) N F).stack = st ∧
    (∀ v, (pop x f (seg ++ x :: st) N F).N v = if v ∈ seg ∨ v = x then MAXINT else N v) ∧
    (∀ v, (pop x f (seg ++ x :: st) N F).F v = if v ∈ seg ∨ v = x then f else F v)
  | [], N, F, _ => by
      rw [List.nil_append, pop, if_pos rfl]
      refine ⟨rfl, fun v => ?_, fun v => ?_⟩ <;> simp [Function.update_apply]
  | e :: seg, N, F, h => by
      rw [List.mem_cons, not_or] at h
      rw [List.cons_append, pop, if_neg (Ne.symm h.1)]
      obtain ⟨h1, h2, h3⟩ := pop_eq x f st seg (Function.update N e MAXINT) (Function.update F e f) h.2
      refine ⟨h1, fun v => ?_, fun v => ?_⟩
      · rw [h2]
        by_cases hv : v ∈ seg ∨ v = x
        · rw [if_pos hv, if_pos (by rw [List.mem_cons]; tauto)]
        · rw [if_neg hv, Function.update_apply]
          by_cases hve : v = e
          · rw [if_pos hve, if_pos (Or.inl (by rw [hve]; exact List.mem_cons_self))]
          · rw [if_neg hve, if_neg (by rw [List.mem_cons]; tauto)]
      · rw [h3]
        by_cases hv : v ∈ seg ∨ v = x
        · rw [if_pos hv, if_pos (by rw [List.mem_cons]; tauto)]
        · rw [if_neg hv, Function.update_apply]
          by_cases hve : v = e
          · rw [if_pos hve, if_pos (Or.inl (by rw [hve]; exact List.mem_cons_self))]
          · rw [if_neg hve, if_neg (by rw [List.mem_cons]; tauto)]

/-- The end of the loop, when `x` is not the root of its component. -/
theorem Loop.post_stay {x : α} {s t : St α β} (h : Loop R FP X x s t (R x)) (h0 : s.N x = 0) (hd : t.N x ≠ s.stack.length + 1) :
    Post R FP X x s t := by
  obtain ⟨seg, hseg, hseg'⟩ := h.stack
  have hxs : x ∉ seg := fun e => (hseg' x e).2.1 rfl
  refine ⟨h.inv, ⟨seg ++ [x], by rw [hseg, List.append_assoc]; rfl, fun v hv => ?_⟩, h.frame, h.ne_zero, fun v h1 h2 => ?_⟩
  · rw [List.mem_append, List.mem_singleton] at hv
    rcases hv with hv | rfl
    · exact ⟨(hseg' v hv).1, (hseg' v hv).2.2⟩
    · refine ⟨h0, ?_⟩
      have := (h.inv.low v h.mem).1
      rw [hseg, place_append hxs, place, if_pos rfl] at this ⊢
      omega
  · by_cases hv : v = x
    · subst hv
      exact ⟨h.self, h.proc⟩
    · exact h.new v hv h1 h2

/-- The end of the loop, when `x` is the root of its component. -/
theorem Loop.post_pop {x : α} {s t : St α β} (h : Loop R FP X x s t (R x)) (hs : Inv R FP X s) (h0 : s.N x = 0)
    (hd : t.N x = s.stack.length + 1) : Post R FP X x s (pop x (t.F x) t.stack t.N t.F) := by
  obtain ⟨seg, hseg, hseg'⟩ := h.stack
  have hxs : x ∉ seg := fun e => (hseg' x e).2.1 rfl
  have hmax := maxint_pos
  have hnew : ∀ v, s.N v = 0 → t.N v ≠ 0 → (∀ a ∈ FP v, a ∈ t.F x) ∧ ∀ y ∈ R v, Knows s t x y := by
    intro v h1 h2
    by_cases hv : v = x
    · subst hv
      exact ⟨h.self, h.proc⟩
    · exact h.new v hv h1 h2
  -- a successor of something new is new or finished
  have hsucc : ∀ v, s.N v = 0 → t.N v ≠ 0 → ∀ y ∈ R v, y ∉ s.stack := by
    intro v h1 h2 y hy hys
    have h3 := ((hnew v h1 h2).2 y hy).2.1 hys
    have h4 := (hs.low y hys).1
    have h5 := place_le s.stack y
    omega
  have hreach : ∀ v z, Reach R v z → (s.N v = 0 ∧ t.N v ≠ 0 ∨ s.N v = MAXINT ∧ ∀ a ∈ s.F v, a ∈ t.F x) →
      z ∉ s.stack ∧ ∀ a ∈ FP z, a ∈ t.F x := by
    intro v z hr
    induction hr using ReflTransGen.head_induction_on with
    | refl =>
      rintro (⟨h1, h2⟩ | ⟨h1, h2⟩)
      · exact ⟨hs.not_mem h1, (hnew z h1 h2).1⟩
      · exact ⟨fun e => by have := (hs.mem z).1 e; omega, fun a ha => h2 a ((hs.done z h1).2 a ⟨z, .refl, ha⟩)⟩
    | head hvy _ ih =>
      rename_i v y hyz
      rintro (⟨h1, h2⟩ | ⟨h1, h2⟩)
      · have hk := (hnew v h1 h2).2 y hvy
        by_cases hy0 : s.N y = 0
        · exact ih (Or.inl ⟨hy0, hk.1⟩)
        · exact ih (Or.inr ⟨hs.finished hy0 (hsucc v h1 h2 y hvy), hk.2.2 hy0⟩)
      · have hy1 := (hs.done v h1).1 y hvy
        exact ih (Or.inr ⟨hy1, fun a ha => h2 a ((hs.done v h1).2 a (.step hvy (hs.upper y a ha)))⟩)
  have hx0 := h.ne_zero
  have hmem : ∀ v, v ∈ t.stack ↔ (v ∈ seg ∨ v = x) ∨ v ∈ s.stack := by
    intro v
    rw [hseg, List.mem_append, List.mem_cons, or_assoc]
  have hpopped : ∀ v, v ∈ seg ∨ v = x → s.N v = 0 ∧ t.N v ≠ 0 := by
    intro v hv
    have h1 : t.N v ≠ 0 := by
      have := (h.inv.mem v).1 ((hmem v).2 (Or.inl hv))
      omega
    rcases hv with hv | rfl
    · exact ⟨(hseg' v hv).1, h1⟩
    · exact ⟨h0, h1⟩
  -- everything popped reaches `x`
  have hroot : ∀ n v, v ∈ seg → place t.stack v ≤ n → Reach R v x := by
    intro n
    induction n with
    | zero =>
      intro v hv hp
      have := place_pos.2 ((hmem v).2 (Or.inl (Or.inl hv)))
      omega
    | succ n ih =>
      intro v hv hp
      obtain ⟨_, w, hw, h2, h3⟩ := h.inv.low v ((hmem v).2 (Or.inl (Or.inl hv)))
      have h4 := (hseg' v hv).2.2
      rcases (hmem w).1 hw with (hw | rfl) | hw
      · exact h3.trans (ih w hw (by omega))
      · exact h3
      · exact absurd hw (hreach v w h3 (Or.inl (hpopped v (Or.inl hv)))).1
  obtain ⟨hst, hN, hF⟩ := pop_eq x (t.F x) s.stack seg t.N t.F hxs
  rw [← hseg] at hst hN hF
  have hold : ∀ v, s.N v ≠ 0 → ¬ (v ∈ seg ∨ v = x) := fun v hv e => hv (hpopped v e).1
  have hvis : ∀ v, t.N v ≠ 0 → (pop x (t.F x) t.stack t.N t.F).N v ≠ 0 := by
    intro v hv
    rw [hN]
    split_ifs
    · omega
    · exact hv
  have hs0 : ∀ v ∈ s.stack, s.N v ≠ 0 := fun v hv => by
    have := (hs.mem v).1 hv
    omega
  refine ⟨⟨?_, ?_, ?_, ?_, ?_, ?_, ?_⟩, ⟨[], by rw [hst]; rfl, fun v hv => absurd hv List.not_mem_nil⟩, ?_, hvis x hx0, ?_⟩
  · intro v
    rw [hst, hN]
    split_ifs with hv
    · exact ⟨fun e => absurd (hpopped v hv).1 (hs0 v e), fun e => by omega⟩
    · rw [← h.inv.mem, hmem]
      exact ⟨Or.inr, fun e => e.resolve_left hv⟩
  · intro v
    rw [hN]
    split_ifs
    · exact le_rfl
    · exact h.inv.small v
  · intro v hv
    rw [hst] at hv ⊢
    rw [hN, if_neg (hold v (hs0 v hv)), (h.frame v (hs0 v hv)).1]
    exact hs.low v hv
  · intro v hv
    rw [hN] at hv
    split_ifs at hv with hvp
    · obtain ⟨h1, h2⟩ := hpopped v hvp
      refine ⟨fun y hy => ?_, fun a ⟨z, hz, ha⟩ => ?_⟩
      · rw [hN]
        split_ifs with hyp
        · rfl
        · refine h.inv.finished ((hnew v h1 h2).2 y hy).1 fun e => ?_
          rw [hmem] at e
          exact hsucc v h1 h2 y hy (e.resolve_left hyp)
      · rw [hF, if_pos hvp]
        exact (hreach v z hz (Or.inl ⟨h1, h2⟩)).2 a ha
    · obtain ⟨h1, h2⟩ := h.inv.done v hv
      refine ⟨fun y hy => ?_, fun a ha => by rw [hF, if_neg hvp]; exact h2 a ha⟩
      rw [hN]
      split_ifs
      · rfl
      · exact h1 y hy
  · intro v a ha
    rw [hF] at ha
    split_ifs at ha with hvp
    · have hx := h.inv.upper x a ha
      rcases hvp with hv | rfl
      · exact .reach (hroot _ v hv le_rfl) hx
      · exact hx
    · exact h.inv.upper v a ha
  · intro v hv
    rw [hst] at hv
    exact hs.inX v hv
  · rw [hst]
    exact hs.nodup
  · intro v hv
    rw [hN, hF, if_neg (hold v hv), if_neg (hold v hv)]
    exact h.frame v hv
  · intro v h1 h2
    have h2' : t.N v ≠ 0 := by
      by_cases hvp : v ∈ seg ∨ v = x
      · exact (hpopped v hvp).2
      · rwa [hN, if_neg hvp] at h2
    have hFx : (pop x (t.F x) t.stack t.N t.F).F x = t.F x := by rw [hF, if_pos (Or.inr rfl)]
    obtain ⟨h3, h4⟩ := hnew v h1 h2'
    refine ⟨fun a ha => by rw [hFx]; exact h3 a ha, fun y hy => ⟨hvis y (h4 y hy).1, fun e => absurd e (hsucc v h1 h2' y hy), fun hy0 a ha => ?_⟩⟩
    rw [hFx]
    exact (h4 y hy).2.2 hy0 a ha

/-- How many nodes have not been visited. -/
def white (X : List α) (s : St α β) : ℕ := (X.toFinset.filter fun v => s.N v = 0).card

theorem Loop.white_lt {x : α} {s t : St α β} {l : List α} (h : Loop R FP X x s t l) (hx : x ∈ X) (h0 : s.N x = 0) : white X t < white X s := by
  refine Finset.card_lt_card ⟨fun v hv => ?_, fun hsub => ?_⟩
  · rw [Finset.mem_filter] at hv ⊢
    refine ⟨hv.1, ?_⟩
    by_contra hn
    exact hn ((h.frame v hn).1 ▸ hv.2)
  · have := hsub (Finset.mem_filter.2 ⟨List.mem_toFinset.2 hx, h0⟩)
    exact h.ne_zero (Finset.mem_filter.1 this).2

/-- `traverse` does what it should. -/
theorem traverse_post (hR : ∀ x ∈ X, ∀ y ∈ R x, y ∈ X) (hX : X.length < MAXINT) : ∀ (n : ℕ) (x : α) (s : St α β), Inv R FP X s → x ∈ X →
    s.N x = 0 → white X s ≤ n → Post R FP X x s (traverse R FP n x s) := by
  intro n
  induction n with
  | zero =>
    intro x s _ hx h0 hw
    have : 0 < white X s := Finset.card_pos.2 ⟨x, Finset.mem_filter.2 ⟨List.mem_toFinset.2 hx, h0⟩⟩
    omega
  | succ n ih =>
    intro x s hs hx h0 hw
    have hs0 : ∀ v ∈ s.stack, s.N v ≠ 0 := fun v hv => by
      have := (hs.mem v).1 hv
      omega
    have key : ∀ (l done : List α) (t : St α β), (∀ y ∈ l, y ∈ R x) → Loop R FP X x s t done →
        Loop R FP X x s (l.foldl (fun t y => absorb x y (if t.N y = 0 then traverse R FP n y t else t)) t) (done ++ l) := by
      intro l
      induction l with
      | nil =>
        intro done t _ h
        rw [List.append_nil]
        exact h
      | cons y l ihl =>
        intro done t hl h
        rw [List.foldl_cons, List.append_cons]
        have hy := hl y List.mem_cons_self
        refine ihl _ _ (fun z hz => hl z (List.mem_cons_of_mem _ hz)) ?_
        split_ifs with hy0
        · exact h.traverse hs0 h0 (ih y t h.inv (hR x hx y hy) hy0 (by have := h.white_lt hx h0; omega)) hy
        · exact h.absorb hs0 h0 hy hy0
    have hloop := key (R x) [] (push FP x s) (fun _ h => h) (loop_push hs hx h0 hX)
    rw [List.nil_append] at hloop
    rw [traverse]
    split_ifs with hd
    · exact hloop.post_pop hs h0 hd
    · exact hloop.post_stay h0 hd

/-- Between the calls of `digraph`. -/
structure Idle (R : α → List α) (FP : α → List β) (X l : List α) (s : St α β) : Prop where
  inv : Inv R FP X s
  stack : s.stack = []
  seen : ∀ v ∈ l, s.N v ≠ 0

theorem Post.stack_nil {x : α} {s t : St α β} (h : Post R FP X x s t) (hs : s.stack = []) : t.stack = [] := by
  obtain ⟨seg, hseg, hseg'⟩ := h.stack
  rw [hs, List.append_nil] at hseg
  rcases List.eq_nil_or_concat seg with rfl | ⟨L, b, rfl⟩
  · exact hseg
  · rw [List.concat_eq_append] at hseg hseg'
    exfalso
    have h1 := (hseg' b (by simp)).2
    have hb : b ∉ L := by
      have := h.inv.nodup
      rw [hseg, List.nodup_append] at this
      exact fun e => this.2.2 b e b (by simp) rfl
    have h2 : 0 < t.N b := ((h.inv.mem b).1 (by rw [hseg]; simp)).1
    rw [hseg, place_append hb, place, if_pos rfl] at h1
    simp only [List.length_nil] at h1
    omega

theorem idle_fold (hR : ∀ x ∈ X, ∀ y ∈ R x, y ∈ X) (hX : X.length < MAXINT) : ∀ (l done : List α) (s : St α β), (∀ y ∈ l, y ∈ X) →
    Idle R FP X done s →
    Idle R FP X (done ++ l) (l.foldl (fun s x => if s.N x = 0 then traverse R FP X.length x s else s) s)
  | [], done, s, _, h => by rw [List.append_nil]; exact h
  | x :: l, done, s, hl, h => by
      rw [List.foldl_cons, List.append_cons]
      refine idle_fold hR hX l _ _ (fun z hz => hl z (List.mem_cons_of_mem _ hz)) ?_
      split_ifs with h0
      · have hw : white X s ≤ X.length := (Finset.card_filter_le _ _).trans (List.toFinset_card_le X)
        have hp := traverse_post hR hX X.length x s h.inv (hl x List.mem_cons_self) h0 hw
        refine ⟨hp.inv, hp.stack_nil h.stack, fun v hv => ?_⟩
        rw [List.mem_append, List.mem_singleton] at hv
        rcases hv with hv | rfl
        · rw [(hp.frame v (h.seen v hv)).1]
          exact h.seen v hv
        · exact hp.vis
      · refine ⟨h.inv, h.stack, fun v hv => ?_⟩
        rw [List.mem_append, List.mem_singleton] at hv
        rcases hv with hv | rfl
        · exact h.seen v hv
        · exact h0

/-- `digraph` gives the least solution. -/
theorem mem_digraph (hR : ∀ x ∈ X, ∀ y ∈ R x, y ∈ X) (hX : X.length < MAXINT) (x : α) (hx : x ∈ X) (a : β) :
    a ∈ digraph X R FP x ↔ Full R FP x a := by
  have h0 : Idle R FP X [] (⟨fun _ => 0, fun _ => [], []⟩ : St α β) :=
    ⟨⟨fun v => by simp, fun v => Nat.zero_le _, fun v hv => absurd hv List.not_mem_nil, fun v hv => absurd (show (0 : ℕ) = MAXINT from hv) (by decide),
      fun v a ha => absurd ha List.not_mem_nil, fun v hv => absurd hv List.not_mem_nil, List.nodup_nil⟩, rfl,
      fun v hv => absurd hv List.not_mem_nil⟩
  have h := idle_fold hR hX X [] _ (fun _ h => h) h0
  rw [List.nil_append] at h
  have hd := h.inv.finished (h.seen x hx) (by rw [h.stack]; exact List.not_mem_nil)
  exact ⟨h.inv.upper x a, (h.inv.done x hd).2 a⟩

end PythonDice.Digraph
