import Verif.Model.StrAlias
import Verif.Props.Roll
import Verif.Props.Output

/-!
# C46: displayed names
-/

namespace PythonDice
open Spec

/-! ## Frame properties -/

/-- `h'` is a later heap: the objects of `h` are still there, unchanged and with the same names, and
new memo entries refer to new objects. -/
structure Ext (h h' : Heap) : Prop where
  cells : ∀ a < h.cells.length, h'.cells[a]? = h.cells[a]?
  len : h.cells.length ≤ h'.cells.length
  memo : ∀ e ∈ h'.memo, e ∈ h.memo ∨ h.cells.length ≤ e.2

theorem Ext.refl (h : Heap) : Ext h h := ⟨fun _ _ => rfl, le_rfl, fun _ he => .inl he⟩

theorem Ext.trans {h₁ h₂ h₃ : Heap} (a : Ext h₁ h₂) (b : Ext h₂ h₃) : Ext h₁ h₃ := by
  refine ⟨fun i hi => (b.cells i (hi.trans_le a.len)).trans (a.cells i hi), a.len.trans b.len, fun e he => ?_⟩
  rcases b.memo e he with h | h
  · exact a.memo e h
  · exact .inr (a.len.trans h)

/-- Memo entries refer to existing objects, and no object is memoised for two different rolls. -/
structure HeapWf (h : Heap) : Prop where
  lt : ∀ e ∈ h.memo, e.2 < h.cells.length
  inj : ∀ e ∈ h.memo, ∀ e' ∈ h.memo, e.2 = e'.2 → e.1 = e'.1

theorem H.bind_run {β γ : Type} (m : H β) (f : β → H γ) (h : Heap) : (m >>= f) h = match m h with
    | (.ok x, h') => f x h'
    | (.error e, h') => (.error e, h') := rfl

/-- What a computation that creates objects does: `P` describes its result. -/
def HSpec {β : Type} (m : H β) (h : Heap) (P : β → Heap → Prop) : Prop :=
  Ext h (m h).2 ∧ HeapWf (m h).2 ∧ ∀ x, (m h).1 = .ok x → P x (m h).2

theorem HSpec.bind {β γ : Type} {m : H β} {f : β → H γ} {h : Heap} {P : β → Heap → Prop} {Q : γ → Heap → Prop}
    (hm : HSpec m h P) (hf : ∀ x h', Ext h h' → HeapWf h' → P x h' → HSpec (f x) h' Q) :
    HSpec (m >>= f) h Q := by
  unfold HSpec at hm ⊢
  have hb : (m >>= f) h = match m h with
      | (.ok x, h') => f x h'
      | (.error e, h') => (.error e, h') := rfl
  rw [hb]
  obtain ⟨h1, h2, h3⟩ := hm
  cases hmh : m h with
  | mk r h' =>
    rw [hmh] at h1 h2 h3
    cases r with
    | error e => exact ⟨h1, h2, fun x hx => by cases hx⟩
    | ok x =>
      obtain ⟨h4, h5, h6⟩ := hf x h' h1 h2 (h3 x rfl)
      exact ⟨h1.trans h4, h5, h6⟩

theorem HSpec.pure {β : Type} {x : β} {h : Heap} (hw : HeapWf h) {P : β → Heap → Prop} (hp : P x h) :
    HSpec (pure x) h P := ⟨Ext.refl h, hw, fun _ hy => by cases hy; exact hp⟩

theorem HSpec.mono {β : Type} {m : H β} {h : Heap} {P Q : β → Heap → Prop} (hm : HSpec m h P)
    (hpq : ∀ x h', Ext h h' → HeapWf h' → P x h' → Q x h') : HSpec m h Q :=
  ⟨hm.1, hm.2.1, fun x hx => hpq x _ hm.1 hm.2.1 (hm.2.2 x hx)⟩

theorem HSpec.lift {β : Type} (x : Except Err β) {h : Heap} (hw : HeapWf h) :
    HSpec (H.lift x) h fun _ h' => h' = h := ⟨Ext.refl h, hw, fun _ _ => rfl⟩

theorem HSpec.liftLimited {β : Type} (x : Except Err (β × Bool)) {h : Heap} (hw : HeapWf h) :
    HSpec (H.liftLimited x) h fun _ h' => h' = h := ⟨Ext.refl h, hw, fun _ _ => rfl⟩

theorem ext_append (h : Heap) (c : Cell) : Ext h { h with cells := h.cells ++ [c] } :=
  ⟨fun a ha => List.getElem?_append_left ha, by simp, fun e he => .inl he⟩

theorem HSpec.new (x : Except Err (RV ℤ)) {h : Heap} (hw : HeapWf h) :
    HSpec (H.new x) h fun a h' => a = h.cells.length ∧ h'.memo = h.memo ∧ h'.cells.length = h.cells.length + 1 ∧
      ∃ r, x = .ok r ∧ h'.cells[a]? = some { die := r } := by
  unfold HSpec H.new
  cases x with
  | error e => exact ⟨Ext.refl h, hw, fun _ hx => by cases hx⟩
  | ok r =>
    refine ⟨ext_append h _, ⟨fun e he => ?_, hw.inj⟩, fun a ha => ?_⟩
    · have := hw.lt e he
      simp only [List.length_append, List.length_singleton]
      omega
    · cases ha
      exact ⟨rfl, rfl, by simp, r, rfl, by simp⟩

theorem HSpec.newLimited (x : Except Err (RV ℤ × Bool)) {h : Heap} (hw : HeapWf h) :
    HSpec (H.newLimited x) h fun a h' => a = h.cells.length ∧ h'.memo = h.memo ∧ h'.cells.length = h.cells.length + 1 :=
  (HSpec.new _ hw).mono fun _ _ _ _ h => ⟨h.1, h.2.1, h.2.2.1⟩

theorem HSpec.die (a : ℕ) {h : Heap} (hw : HeapWf h) :
    HSpec (H.die a) h fun r h' => h' = h ∧ ∃ c, h.cells[a]? = some c ∧ c.die = r := by
  unfold HSpec H.die
  cases hc : h.cells[a]? with
  | none => exact ⟨Ext.refl h, hw, fun _ hx => by cases hx⟩
  | some c => exact ⟨Ext.refl h, hw, fun _ hx => by cases hx; exact ⟨rfl, c, rfl, rfl⟩⟩

theorem HSpec.memoGet (n : ℕ) (d : RV ℤ) {h : Heap} (hw : HeapWf h) :
    HSpec (H.memoGet n d) h fun r h' => h' = h ∧ ∀ a, r = some a → ((n, d.vals, d.probs), a) ∈ h.memo := by
  refine ⟨Ext.refl h, hw, fun r hr => ⟨rfl, fun a ha => ?_⟩⟩
  cases hr
  have hl : ∀ (l : List ((ℕ × List ℤ × List ℕ) × ℕ)) k a, l.lookup k = some a → (k, a) ∈ l := by
    intro l k a
    induction l with
    | nil => simp
    | cons x l ih =>
      obtain ⟨k', a'⟩ := x
      rw [List.lookup_cons]
      by_cases hk : k = k'
      · subst hk
        simp only [beq_self_eq_true, Option.some.injEq, List.mem_cons]
        rintro rfl
        exact .inl rfl
      · rw [beq_false_of_ne hk]
        exact fun h => List.mem_cons_of_mem _ (ih h)
  exact hl _ _ _ ha

/-- The objects `roll(n, d)` can return: a new one, `d` itself, or a memoised one; and what the memo
table says about it afterwards. -/
def RollPost (h : Heap) (n : ℕ) (d : ℕ) (r : ℕ) (h' : Heap) : Prop :=
  r < h'.cells.length ∧
  (h.cells.length ≤ r ∨ (r = d ∧ n = 1) ∨
    ∃ c, h.cells[d]? = some c ∧ ((n, c.die.vals, c.die.probs), r) ∈ h.memo) ∧
  ∀ e ∈ h'.memo, e.2 = r → e ∈ h.memo ∨ ∃ c, h.cells[d]? = some c ∧ e.1 = (n, c.die.vals, c.die.probs)

theorem addOddH_spec (st : Settings) (n full d : ℕ) {h : Heap} (hw : HeapWf h) :
    HSpec (addOddH st n full d) h fun a h' => (a = full ∧ h' = h) ∨
      (a = h.cells.length ∧ h'.memo = h.memo ∧ h'.cells.length = h.cells.length + 1) := by
  unfold addOddH
  split
  · refine (HSpec.die full hw).bind fun f h1 _ hw1 ⟨e1, _⟩ => ?_
    subst e1
    refine (HSpec.die d hw1).bind fun f h1 _ hw1 ⟨e1, _⟩ => ?_
    subst e1
    exact (HSpec.newLimited _ hw1).mono fun _ _ _ _ h => .inr h
  · exact HSpec.pure hw (.inl ⟨rfl, rfl⟩)

theorem rollFresh_spec (st : Settings) (half : H ℕ) (n d : ℕ) {h : Heap} (hw : HeapWf h) (hd : d < h.cells.length)
    (hh : HSpec half h fun _ _ => True) :
    HSpec (rollFresh st half n d) h (RollPost h n d) := by
  -- up to the creation of `full`
  have h1 : HSpec (half >>= fun half => H.die half >>= fun hd =>
      H.newLimited (RV.binop st .add hd hd) >>= fun full => addOddH st n full d) h
      fun full h' => h.cells.length ≤ full ∧ full < h'.cells.length ∧ ∀ e ∈ h'.memo, e.2 ≠ full := by
    refine hh.bind fun a h1 e1 hw1 _ => ?_
    refine (HSpec.die a hw1).bind fun hd h2 _ hw2 ⟨e2, _⟩ => ?_
    subst e2
    refine (HSpec.newLimited _ hw2).bind fun full h3 e3 hw3 ⟨p1, p2, p3⟩ => ?_
    refine (addOddH_spec st n full d hw3).mono fun x h4 e4 hw4 hx => ?_
    rcases hx with ⟨rfl, rfl⟩ | ⟨q1, q2, q3⟩
    · refine ⟨by rw [p1]; exact e1.len, by omega, fun e he => ?_⟩
      rw [p2] at he
      have := hw2.lt e he
      omega
    · refine ⟨by rw [q1]; exact e1.len.trans e3.len, by omega, fun e he => ?_⟩
      rw [q2, p2] at he
      have := hw2.lt e he
      omega
  -- the rest
  have h2 : ∀ full h', Ext h h' → HeapWf h' →
      (h.cells.length ≤ full ∧ full < h'.cells.length ∧ ∀ e ∈ h'.memo, e.2 ≠ full) →
      Ext h ((H.die d >>= fun dd => H.setSource full n dd >>= fun _ => H.memoSet n dd full >>= fun _ => pure full : H ℕ) h').2 ∧
      HeapWf ((H.die d >>= fun dd => H.setSource full n dd >>= fun _ => H.memoSet n dd full >>= fun _ => pure full : H ℕ) h').2 ∧
      ∀ x, ((H.die d >>= fun dd => H.setSource full n dd >>= fun _ => H.memoSet n dd full >>= fun _ => pure full : H ℕ) h').1 = .ok x →
        RollPost h n d x ((H.die d >>= fun dd => H.setSource full n dd >>= fun _ => H.memoSet n dd full >>= fun _ => pure full : H ℕ) h').2 := by
    rintro full h' e hw' ⟨p1, p2, p3⟩
    have hc : h'.cells[d]? = h.cells[d]? := e.cells d hd
    obtain ⟨c, hcd⟩ : ∃ c, h.cells[d]? = some c := ⟨_, List.getElem?_eq_getElem hd⟩
    have hrun : (H.die d >>= fun dd => H.setSource full n dd >>= fun _ => H.memoSet n dd full >>= fun _ => pure full : H ℕ) h' =
        (.ok full, { cells := h'.cells.modify full fun c' => { c' with die := c'.die.setSource n c.die },
                     memo := ((n, c.die.vals, c.die.probs), full) :: h'.memo }) := by
      have hdie : H.die d h' = (.ok c.die, h') := by unfold H.die; rw [hc, hcd]
      show H.bind (H.die d) _ h' = _
      unfold H.bind
      rw [hdie]
      rfl
    rw [hrun]
    refine ⟨⟨fun a ha => ?_, ?_, fun x hx => ?_⟩, ⟨fun x hx => ?_, fun x hx y hy hxy => ?_⟩, fun x hx => ?_⟩
    · have : full ≠ a := by omega
      simp [List.getElem?_modify, this, e.cells a ha]
    · simpa using e.len
    · rcases List.mem_cons.1 hx with rfl | hx
      · exact .inr p1
      · exact e.memo x hx
    · simp only [List.length_modify]
      rcases List.mem_cons.1 hx with rfl | hx
      · exact p2
      · exact hw'.lt x hx
    · rcases List.mem_cons.1 hx with rfl | hx <;> rcases List.mem_cons.1 hy with rfl | hy
      · rfl
      · exact absurd hxy.symm (p3 y hy)
      · exact absurd hxy (p3 x hx)
      · exact hw'.inj x hx y hy hxy
    · cases hx
      refine ⟨by simpa using p2, .inl p1, fun x hx hxr => ?_⟩
      rcases List.mem_cons.1 hx with rfl | hx
      · exact .inr ⟨c, hcd, rfl⟩
      · exact absurd hxr (p3 x hx)
  have h3 : rollFresh st half n d = (half >>= fun half => H.die half >>= fun hd =>
      H.newLimited (RV.binop st .add hd hd) >>= fun full => addOddH st n full d) >>= fun full =>
        H.die d >>= fun dd => H.setSource full n dd >>= fun _ => H.memoSet n dd full >>= fun _ => pure full := by
    have assoc : ∀ {α β γ : Type} (m : H α) (f : α → H β) (g : β → H γ), (m >>= f) >>= g = m >>= fun x => f x >>= g := by
      intro α β γ m f g
      funext h
      show H.bind (H.bind m f) g h = H.bind m (fun x => H.bind (f x) g) h
      unfold H.bind
      cases m h with
      | mk r h' => cases r <;> rfl
    simp only [assoc]
    rfl
  rw [h3]
  unfold HSpec
  rw [H.bind_run]
  obtain ⟨e1, w1, s1⟩ := h1
  revert e1 w1 s1
  generalize (half >>= fun half => H.die half >>= fun hd =>
      H.newLimited (RV.binop st .add hd hd) >>= fun full => addOddH st n full d) h = res
  intro e1 w1 s1
  obtain ⟨r, h'⟩ := res
  cases r with
  | error e => exact ⟨e1, w1, fun x hx => by cases hx⟩
  | ok x => exact h2 x h' e1 w1 (s1 x rfl)

theorem rollNatH_spec (st : Settings) (fuel n d : ℕ) {h : Heap} (hw : HeapWf h) (hd : d < h.cells.length) :
    HSpec (rollNatH st fuel n d) h (RollPost h n d) := by
  induction fuel generalizing n with
  | zero =>
    rw [rollNatH]
    exact ⟨Ext.refl h, hw, fun x hx => by cases hx⟩
  | succ fuel ih =>
    rw [rollNatH]
    split
    · refine (HSpec.new _ hw).mono ?_
      rintro a h' _ hw' ⟨h1, h2, h3, _⟩
      refine ⟨by omega, .inl (by omega), fun e he hea => ?_⟩
      rw [h2] at he
      have := hw.lt e he
      omega
    · split
      · rename_i _ h1
        exact HSpec.pure hw ⟨hd, .inr (.inl ⟨rfl, h1⟩), fun e he _ => .inl he⟩
      · refine (HSpec.die d hw).bind ?_
        rintro dd h1 _ hw1 ⟨rfl, c, hc, rfl⟩
        refine (HSpec.memoGet n _ hw1).bind ?_
        rintro r h2 _ hw2 ⟨rfl, hr⟩
        cases r with
        | some a =>
          have := hr a rfl
          exact HSpec.pure hw2 ⟨hw2.lt _ this, .inr (.inr ⟨c, hc, this⟩), fun e he _ => .inl he⟩
        | none => exact rollFresh_spec st _ n d hw2 hd ((ih (n / 2)).mono fun _ _ _ _ _ => trivial)

theorem rollIntH_spec (st : Settings) (n : ℤ) (d : ℕ) {h : Heap} (hw : HeapWf h) (hd : d < h.cells.length) :
    HSpec (rollIntH st n d) h fun r h' => RollPost h n.natAbs d r h' ∧
      (n < 0 → h.cells.length ≤ r ∧ ∀ e ∈ h'.memo, e.2 ≠ r) := by
  unfold rollIntH
  split
  · rename_i hn
    refine (rollNatH_spec st _ n.natAbs d hw hd).bind ?_
    rintro r h1 e1 hw1 _
    refine (HSpec.die r hw1).bind ?_
    rintro rd h2 _ hw2 ⟨rfl, _⟩
    refine (HSpec.new _ hw2).mono ?_
    rintro a h' e' hw' ⟨h1, h2, h3, _⟩
    have hne : ∀ e ∈ h'.memo, e.2 ≠ a := fun e he => by
      rw [h2] at he
      have := hw2.lt e he
      omega
    have hl := e1.len
    refine ⟨⟨by omega, .inl (by omega), fun e he hea => absurd hea (hne e he)⟩, fun _ => ⟨by omega, hne⟩⟩
  · rename_i hn
    exact (rollNatH_spec st _ n.natAbs d hw hd).mono fun r h' _ _ hp => ⟨hp, fun h => absurd h hn⟩

/-- `rollNamed`, unfolded: name the result `r` of `result` by `nm`, computed from the heap after the roll. -/
theorem rollNamed_eq (result : H ℕ) (n d : HArg) (h : Heap) :
    rollNamed result n d h = match result h with
      | (.error e, h1) => (.error e, h1)
      | (.ok r, h1) => match (nameRhs d h1).1 with
        | .error e => (.error e, h1)
        | .ok rhs => (.ok r, { h1 with cells := h1.cells.modify r fun c => { c with name := (nameLhs n, rhs) } }) := by
  have hn : ∀ h1, (nameRhs d h1).2 = h1 := by
    intro h1
    cases d with
    | num d => rfl
    | seq s => rfl
    | rv a =>
      show (H.bind (H.name a) _ h1).2 = h1
      unfold H.bind H.name
      cases h1.cells[a]? <;> rfl
  show H.bind result _ h = _
  unfold H.bind
  cases result h with
  | mk x h1 =>
    cases x with
    | error e => rfl
    | ok r =>
      simp only
      show H.bind (nameRhs d) _ h1 = _
      unfold H.bind
      have := hn h1
      cases hx : nameRhs d h1 with
      | mk y h2 =>
        rw [hx] at this
        simp only at this
        subst this
        cases y <;> rfl

theorem strOf_eq_of_cells {h h' : Heap} {a : ℕ} (e : h'.cells[a]? = h.cells[a]?) : strOf h' a = strOf h a := by
  unfold strOf; rw [e]

/-- `rollNamed` renames only the object it returns. -/
theorem rollNamed_frame (result : H ℕ) (n d : HArg) (h : Heap) (P : ℕ → Heap → Prop) (hs : HSpec result h P) :
    (∀ a < h.cells.length, (rollNamed result n d h).1 ≠ .ok a →
      (rollNamed result n d h).2.cells[a]? = h.cells[a]?) ∧
    h.cells.length ≤ (rollNamed result n d h).2.cells.length ∧ HeapWf (rollNamed result n d h).2 ∧
    (rollNamed result n d h).2.memo = (result h).2.memo := by
  rw [rollNamed_eq]
  obtain ⟨e, hw, hp⟩ := hs
  cases hr : result h with
  | mk x h1 =>
    rw [hr] at e hw hp
    cases x with
    | error err => exact ⟨fun a ha _ => e.cells a ha, e.len, hw, rfl⟩
    | ok r =>
      simp only
      cases (nameRhs d h1).1 with
      | error err => exact ⟨fun a ha _ => e.cells a ha, e.len, hw, rfl⟩
      | ok rhs =>
        refine ⟨fun a ha hne => ?_, by simpa using e.len, ⟨fun x hx => by simpa using hw.lt x hx, hw.inj⟩, rfl⟩
        have hra : r ≠ a := by rintro rfl; exact hne rfl
        simp [List.getElem?_modify, hra, e.cells a ha]

theorem rollInner_rv (st : Settings) (n : ℤ) (d : ℕ) : rollInnerH st (.num n) (.rv d) = rollIntH st n d := rfl

theorem rollH_run (st : Settings) (n d : HArg) (hd : d.isEmptySeq = false) (h : Heap) :
    rollH st n d h = ((rollNamed (rollInnerH st n d) n d h).1.map some, (rollNamed (rollInnerH st n d) n d h).2) := by
  unfold rollH
  rw [hd]
  show H.bind _ _ h = _
  unfold H.bind
  cases rollNamed (rollInnerH st n d) n d h with
  | mk x h1 => cases x <;> rfl

/-- C46 partial.  `roll(n, d)` for an int `n` and a die object `d` renames at most the object it
returns; every other existing die keeps its name, also if the call fails.  So if the object returned is
a new one, no existing name changes.  (Missing: the returned object can be an existing one, and then
its name can change; see the counterexamples.) -/
theorem C46_only_result_partial (st : Settings) (n : ℤ) (d : ℕ) (h : Heap) (hw : HeapWf h) (hd : d < h.cells.length) :
    ∀ a < h.cells.length, (rollH st (.num n) (.rv d) h).1 ≠ .ok (some a) →
      strOf (rollH st (.num n) (.rv d) h).2 a = strOf h a := by
  intro a ha hne
  have hs := rollIntH_spec st n d hw hd
  rw [← rollInner_rv] at hs
  have hf := (rollNamed_frame _ (.num n) (.rv d) h _ hs).1 a ha
  rw [rollH_run _ _ _ rfl] at hne ⊢
  refine strOf_eq_of_cells (hf fun h' => hne ?_)
  rw [h']; rfl

/-- C46 partial.  The object returned by `roll(n, d)` is a new one (so that no existing name changes)
unless `n = 1` or this roll of this die is memoised. -/
theorem C46_result_new_partial (st : Settings) (n : ℤ) (d : ℕ) (h : Heap) (hw : HeapWf h) (c : Cell)
    (hc : h.cells[d]? = some c) (hn : n ≠ 1)
    (hm : n < 0 ∨ ∀ a, ((n.natAbs, c.die.vals, c.die.probs), a) ∉ h.memo) (r : Option ℕ)
    (hr : (rollH st (.num n) (.rv d) h).1 = .ok r) : ∃ a, r = some a ∧ h.cells.length ≤ a := by
  have hd : d < h.cells.length := by
    by_contra hd
    rw [List.getElem?_eq_none (by omega)] at hc
    cases hc
  obtain ⟨_, _, hp⟩ := rollIntH_spec st n d hw hd
  rw [rollH_run _ _ _ rfl, rollNamed_eq, rollInner_rv] at hr
  cases hx : rollIntH st n d h with
  | mk x h1 =>
    rw [hx] at hp hr
    cases x with
    | error e => simp [Except.map] at hr
    | ok a =>
      obtain ⟨⟨_, hp2, _⟩, hp3⟩ := hp a rfl
      simp only at hr
      have ha : h.cells.length ≤ a := by
        rcases hp2 with h' | ⟨_, h'⟩ | ⟨c', h1, h2⟩
        · exact h'
        · exact (hp3 (by omega)).1
        · rcases hm with hm | hm
          · exact (hp3 hm).1
          · rw [hc] at h1
            cases h1
            exact absurd h2 (hm a)
      cases hy : (nameRhs (.rv d) h1).1 with
      | error e => rw [hy] at hr; simp [Except.map] at hr
      | ok rhs =>
        rw [hy] at hr
        simp only [Except.map, Except.ok.injEq] at hr
        exact ⟨a, hr.symm, ha⟩

/-! ## Rolls of ints -/

/-- The faces of `roll(d)`. -/
def sidesVals (d : ℤ) : List ℤ := if 0 < d then pyRange 1 (d + 1) else if d = 0 then [0] else pyRange d 0

theorem mem_pyRange (a b v : ℤ) : v ∈ pyRange a b ↔ a ≤ v ∧ v < b := by
  unfold pyRange
  rw [List.mem_map]
  constructor
  · rintro ⟨i, hi, rfl⟩
    rw [List.mem_range] at hi
    omega
  · rintro ⟨h1, h2⟩
    exact ⟨(v - a).toNat, by rw [List.mem_range]; omega, by omega⟩

theorem sidesVals_inj {d e : ℤ} (h : sidesVals d = sidesVals e) : d = e := by
  have hm : ∀ v, v ∈ sidesVals d ↔ v ∈ sidesVals e := fun v => by rw [h]
  unfold sidesVals at hm
  have key : ∀ d : ℤ, ∀ v, (v ∈ if 0 < d then pyRange 1 (d + 1) else if d = 0 then [0] else pyRange d 0) ↔
      (0 < d ∧ 1 ≤ v ∧ v ≤ d) ∨ (d = 0 ∧ v = 0) ∨ (d < 0 ∧ d ≤ v ∧ v < 0) := by
    intro d v
    split
    · rw [mem_pyRange]; omega
    · split
      · rw [List.mem_singleton]; omega
      · rw [mem_pyRange]; omega
  simp only [key] at hm
  have h1 := hm d
  have h2 := hm e
  omega

theorem pyRange_sorted (a b : ℤ) : (pyRange a b).Pairwise (· < ·) := by
  unfold pyRange
  rw [List.pairwise_map]
  exact List.pairwise_lt_range.imp (by intro a b h; omega)

theorem pyRange_ne_nil {a b : ℤ} (h : a < b) : pyRange a b ≠ [] := by
  intro h0
  have : a ∈ pyRange a b := by rw [mem_pyRange]; omega
  rw [h0] at this
  simp at this

theorem asDieH_num (st : Settings) (m : ℤ) (h : Heap) : ∃ ps, asDieH st (.num m) h =
    (.ok h.cells.length, { h with cells := h.cells ++ [{ die := ⟨sidesVals m, ps, none⟩ }] }) := by
  unfold asDieH sidesVals
  simp only
  split
  · rename_i hm
    rw [fromSeq_nodup st _ (pyRange_sorted _ _) (pyRange_ne_nil (by omega))]
    exact ⟨_, rfl⟩
  · split
    · rw [fromConst_eq]
      exact ⟨_, rfl⟩
    · rename_i h1 h2
      rw [fromSeq_nodup st _ (pyRange_sorted _ _) (pyRange_ne_nil (by omega))]
      exact ⟨_, rfl⟩

/-- A history of calls `roll(n, d)` with ints, under any settings: the heap reached and the dice
returned so far, with the text `str(X)` each had when it was returned. -/
inductive IntHistory : Heap → List (ℕ × Option (List Char)) → Prop
  | start : IntHistory {} []
  | roll (h : Heap) (R : List (ℕ × Option (List Char))) (st : Settings) (n d : ℤ) (a : ℕ) (h' : Heap) (hh : IntHistory h R)
      (hr : rollH st (.num n) (.num d) h = (.ok (some a), h')) : IntHistory h' ((a, strOf h' a) :: R)
  | fail (h : Heap) (R : List (ℕ × Option (List Char))) (st : Settings) (n d : ℤ) (e : Err) (h' : Heap) (hh : IntHistory h R)
      (hr : rollH st (.num n) (.num d) h = (.error e, h')) : IntHistory h' R

/-- What is known about a returned die: its name is that of the roll, and memo entries that refer to it
are for that roll. -/
def Named (h : Heap) (a : ℕ) (s : Option (List Char)) : Prop :=
  ∃ n d : ℤ, ∃ c, h.cells[a]? = some c ∧ c.name = (n, .num d) ∧ s = some (strName (n, .num d)) ∧
    ∀ e ∈ h.memo, e.2 = a → 0 ≤ n ∧ e.1.1 = n.natAbs ∧ e.1.2.1 = sidesVals d

/-- One roll of ints. -/
theorem rollInts_step (st : Settings) (n d : ℤ) (h : Heap) (hw : HeapWf h) :
    HeapWf (rollH st (.num n) (.num d) h).2 ∧
    (∀ a s, Named h a s → Named (rollH st (.num n) (.num d) h).2 a s) ∧
    (∀ a, (rollH st (.num n) (.num d) h).1 = .ok (some a) →
      Named (rollH st (.num n) (.num d) h).2 a (strOf (rollH st (.num n) (.num d) h).2 a)) := by
  obtain ⟨ps, hps⟩ := asDieH_num st d h
  set L := h.cells.length with hL
  set h1 : Heap := { h with cells := h.cells ++ [{ die := ⟨sidesVals d, ps, none⟩ }] } with hh1
  have hw1 : HeapWf h1 := ⟨fun e he => by have := hw.lt e he; simp [h1]; omega, hw.inj⟩
  have hlen1 : h1.cells.length = L + 1 := by simp [h1, hL]
  have hcL : h1.cells[L]? = some { die := ⟨sidesVals d, ps, none⟩ } := by simp [h1, hL]
  have hold : ∀ a < L, h1.cells[a]? = h.cells[a]? := fun a ha => List.getElem?_append_left ha
  have hinner : rollInnerH st (.num n) (.num d) h = rollIntH st n L h1 := by
    unfold rollInnerH
    rw [H.bind_run, hps]
  obtain ⟨e2, w2, p2⟩ := rollIntH_spec st n L hw1 (by omega)
  rw [rollH_run _ _ _ rfl, rollNamed_eq, hinner]
  cases hx : rollIntH st n L h1 with
  | mk x h2 =>
    rw [hx] at e2 w2 p2
    simp only at e2 w2 p2
    -- names and memo entries of old objects
    have hkeep : ∀ a s, Named h a s → Named h2 a s := by
      rintro a s ⟨n0, d0, c, hc, hn0, hs, hm⟩
      have haL : a < L := by
        by_contra hcon
        rw [List.getElem?_eq_none (by omega)] at hc
        cases hc
      refine ⟨n0, d0, c, by rw [e2.cells a (by omega), hold a haL, hc], hn0, hs, fun e he hea => ?_⟩
      rcases e2.memo e he with h' | h'
      · exact hm e h' hea
      · omega
    cases x with
    | error e => exact ⟨w2, hkeep, fun a ha => by cases ha⟩
    | ok r =>
      obtain ⟨⟨q1, q2, q3⟩, q4⟩ := p2 r rfl
      have hnm : (nameRhs (.num d) h2).1 = .ok (.num d) := rfl
      simp only [hnm]
      have hentry : ∀ e ∈ h2.memo, e.2 = r → 0 ≤ n ∧ e.1.1 = n.natAbs ∧ e.1.2.1 = sidesVals d := by
        intro e he her
        have hn : 0 ≤ n := by
          by_contra hcon
          exact (q4 (by omega)).2 e he her
        refine ⟨hn, ?_⟩
        rcases q3 e he her with h' | ⟨c, hc, hk⟩
        · have hr : r < L := her ▸ hw.lt e h'
          rcases q2 with hq | ⟨hq, _⟩ | ⟨c, hc, hk⟩
          · omega
          · omega
          · rw [hcL] at hc
            cases hc
            have := hw.inj e h' _ hk her
            rw [this]
            exact ⟨rfl, rfl⟩
        · rw [hcL] at hc
          cases hc
          rw [hk]
          exact ⟨rfl, rfl⟩
      obtain ⟨cr, hcr⟩ : ∃ c, h2.cells[r]? = some c := ⟨_, List.getElem?_eq_getElem q1⟩
      refine ⟨⟨fun x hx => by simpa using w2.lt x hx, w2.inj⟩, fun a s ha => ?_, fun a ha => ?_⟩
      · have hna := hkeep a s ha
        by_cases hra : r = a
        · subst hra
          obtain ⟨n0, d0, c, hc, hn0, hs, hm⟩ := hna
          obtain ⟨n1, d1, c1, hc1, hn1, hs1, hm1⟩ := ha
          have hrL : r < L := by
            by_contra hcon
            rw [List.getElem?_eq_none (by omega)] at hc1
            cases hc1
          have hsame : (n, Rhs.num d) = (n0, .num d0) := by
            rcases q2 with hq | ⟨hq, _⟩ | ⟨c', hc', hk⟩
            · omega
            · omega
            · rw [hcL] at hc'
              cases hc'
              obtain ⟨k1, k2, k3⟩ := hm1 _ hk rfl
              simp only at k2 k3
              have hc2 : h2.cells[r]? = h.cells[r]? := by rw [e2.cells r (by omega), hold r hrL]
              rw [hc2, hc1] at hc
              cases hc
              rw [hn1] at hn0
              cases hn0
              have hn : 0 ≤ n := by
                by_contra hcon
                have := (q4 (by omega)).1
                omega
              rw [sidesVals_inj k3, show n = n0 by omega]
          refine ⟨n0, d0, { c with name := (n, .num d) }, by simp [List.getElem?_modify, hc, nameLhs], hsame, hs, hm⟩
        · obtain ⟨n0, d0, c, hc, hn0, hs, hm⟩ := hna
          exact ⟨n0, d0, c, by simp [List.getElem?_modify, hra, hc], hn0, hs, hm⟩
      · simp only [Except.map, Except.ok.injEq, Option.some.injEq] at ha
        subst ha
        exact ⟨n, d, { cr with name := (n, .num d) }, by simp [List.getElem?_modify, hcr, nameLhs], rfl,
          by simp [strOf, List.getElem?_modify, hcr, nameLhs], hentry⟩

theorem intHistory_inv {h : Heap} {R : List (ℕ × Option (List Char))} (hh : IntHistory h R) :
    HeapWf h ∧ ∀ x ∈ R, Named h x.1 x.2 := by
  induction hh with
  | start => exact ⟨⟨fun e he => by simp at he, fun e he => by simp at he⟩, fun x hx => by simp at hx⟩
  | roll h R st n d a h' _ hr ih =>
    obtain ⟨h1, h2, h3⟩ := rollInts_step st n d h ih.1
    rw [hr] at h1 h2 h3
    refine ⟨h1, fun x hx => ?_⟩
    rcases List.mem_cons.1 hx with rfl | hx
    · exact h3 a rfl
    · exact h2 _ _ (ih.2 x hx)
  | fail h R st n d e h' _ hr ih =>
    obtain ⟨h1, h2, _⟩ := rollInts_step st n d h ih.1
    rw [hr] at h1 h2
    exact ⟨h1, fun x hx => h2 _ _ (ih.2 x hx)⟩

/-- C46 partial.  As long as only ints are rolled, `str(X)` of every die returned by a `roll` is forever
what it was when the die was returned. -/
theorem C46_ints_stable_partial (h : Heap) (R : List (ℕ × Option (List Char))) (hh : IntHistory h R) (a : ℕ)
    (s : Option (List Char)) (ha : (a, s) ∈ R) : strOf h a = s := by
  obtain ⟨n, d, c, hc, hn, hs, _⟩ := (intHistory_inv hh).2 _ ha
  simp only at hs
  rw [hs]
  unfold strOf
  simp only at hc
  rw [hc]
  simp [hn]

/-- A history: `roll(2, 6)`, `roll(-3, 4)` and again `roll(2, 6)`, which returns the first object. -/
example : ∃ h, IntHistory h [(1, some "2d6".toList), (5, some "-3d4".toList), (1, some "2d6".toList)] := by
  have h1 := IntHistory.roll {} [] {} 2 6 1 (rollH {} (.num 2) (.num 6) {}).2 .start (by decide +kernel)
  have h2 := IntHistory.roll _ _ {} (-3) 4 5 (rollH {} (.num (-3)) (.num 4) (rollH {} (.num 2) (.num 6) {}).2).2 h1
    (by decide +kernel)
  have h3 := IntHistory.roll _ _ {} 2 6 1
    (rollH {} (.num 2) (.num 6) (rollH {} (.num (-3)) (.num 4) (rollH {} (.num 2) (.num 6) {}).2).2).2 h2
    (by decide +kernel)
  refine ⟨_, cast (congrArg (IntHistory _) ?_) h3⟩
  decide +kernel

/-- The hypotheses of `C46_result_new_partial` are met by the first `roll(3, X)`. -/
example : (rollH {} (.num 3) (.rv 0) { cells := [{ die := ⟨[1, 2], [1, 1], none⟩ }] }).1 = .ok (some 2) := by
  decide +kernel

/-- C46 fails: `X = roll(2, 6)` is shown as `2d6`; after `roll(1, X)` the same object is shown as `d{?}`,
although its distribution is still that of `2d6`. -/
theorem C46_renamed_by_use_counterexample : ∃ st : Settings, ∃ X : ℕ, ∃ h1 : Heap,
    rollH st (.num 2) (.num 6) {} = (.ok (some X), h1) ∧ strOf h1 X = some "2d6".toList ∧
    (rollH st (.num 1) (.rv X) h1).1 = .ok (some X) ∧
    strOf (rollH st (.num 1) (.rv X) h1).2 X = some "d{?}".toList ∧
    ((rollH st (.num 1) (.rv X) h1).2.cells[X]?).map Cell.die = (h1.cells[X]?).map Cell.die :=
  ⟨{}, 1, (rollH {} (.num 2) (.num 6) {}).2, by decide +kernel⟩

/-- C46 fails also without using `X` again: `X = roll(2, 6)` is shown as `2d6`; after
`Y = roll(2, Seq(1, 2, 3, 4, 5, 6))`, which is the same roll and returns the memoised object, `X` is
shown as `2d{?}`. -/
theorem C46_renamed_by_memo_counterexample : ∃ st : Settings, ∃ X : ℕ, ∃ h1 : Heap,
    rollH st (.num 2) (.num 6) {} = (.ok (some X), h1) ∧ strOf h1 X = some "2d6".toList ∧
    (rollH st (.num 2) (.seq [1, 2, 3, 4, 5, 6]) h1).1 = .ok (some X) ∧
    strOf (rollH st (.num 2) (.seq [1, 2, 3, 4, 5, 6]) h1).2 X = some "2d{?}".toList :=
  ⟨{}, 1, (rollH {} (.num 2) (.num 6) {}).2, by decide +kernel⟩

/-- C46 fails also when the same roll is only made on the way to another: `X = roll(2, 6)` is shown as `2d6`; after `roll(roll(1, 2), 6)`,
which is a roll of one or of two dice, `X` is shown as `2d{?}`, although another object was returned. -/
theorem C46_renamed_inside_counterexample : ∃ st : Settings, ∃ X Y Z : ℕ, ∃ h1 h2 h3 : Heap,
    rollH st (.num 2) (.num 6) {} = (.ok (some X), h1) ∧ strOf h1 X = some "2d6".toList ∧
    rollH st (.num 1) (.num 2) h1 = (.ok (some Y), h2) ∧ strOf h2 X = some "2d6".toList ∧
    rollH st (.rv Y) (.num 6) h2 = (.ok (some Z), h3) ∧ Z ≠ X ∧ strOf h3 X = some "2d{?}".toList :=
  ⟨{}, 1, 2, 4, (rollH {} (.num 2) (.num 6) {}).2, (rollH {} (.num 1) (.num 2) (rollH {} (.num 2) (.num 6) {}).2).2,
    (rollH {} (.rv 2) (.num 6) (rollH {} (.num 1) (.num 2) (rollH {} (.num 2) (.num 6) {}).2).2).2, by decide +kernel⟩

/-! ## C56: the name given by a roll -/

/-- The number shown before the `d`: none for -1, 0 and 1. -/
def CountText (k : ℤ) (t : List Char) : Prop := if |k| ≤ 1 then t = [] else IntText |k| t

/-- The text shown for a roll of `k` dice with `sides` sides (`none`: faces that are not those of a plain die). -/
inductive RollName : ℤ → Option ℤ → List Char → Prop
  | plain (k m : ℤ) (c d : List Char) (hc : CountText k c) (hd : IntText |m| d) (h : 0 < k * m) : RollName k (some m) (c ++ 'd' :: d)
  | minus (k m : ℤ) (c d : List Char) (hc : CountText k c) (hd : IntText |m| d) (h : k * m < 0) : RollName k (some m) ('-' :: c ++ 'd' :: d)
  | zero (k m : ℤ) (c : List Char) (hc : CountText k c) (h : k * m = 0) : RollName k (some m) (c ++ "d{0..0}".toList)
  | other (k : ℤ) (c : List Char) (hc : CountText k c) (h : k ≠ 0) : RollName k none (c ++ "d{?}".toList)
  | none : RollName 0 none "d{0..0}".toList

/-- The number of dice shown: a die as number of dice shows as 0. -/
def shownCount : HArg → ℤ
  | .num n => n
  | .seq s => s.sum
  | .rv _ => 0

theorem strLhs_text (k : ℤ) : CountText k (strLhs k) := by
  unfold CountText strLhs
  by_cases h : |k| ≤ 1
  · rw [if_pos h, if_neg (by omega)]
  · rw [if_neg h, if_pos (by omega)]
    exact strOfInt_text _

theorem strName_num (k m : ℤ) : RollName k (some m) (strName (k, .num m)) := by
  have hc := strLhs_text k
  have hd := strOfInt_text |m|
  have e : strName (k, .num m) = (if 0 ≤ k * m then [] else ['-']) ++ strLhs k ++ ['d'] ++
      (if k * m = 0 then "{0..0}".toList else strOfInt |m|) := rfl
  rw [e]
  rcases lt_trichotomy (k * m) 0 with h | h | h
  · rw [if_neg (by omega), if_neg (by omega)]
    have := RollName.minus k m _ _ hc hd h
    simpa using this
  · rw [if_pos (by omega), if_pos h]
    have := RollName.zero k m _ hc h
    simpa using this
  · rw [if_pos (by omega), if_neg (by omega)]
    have := RollName.plain k m _ _ hc hd h
    simpa using this

theorem strName_unknown (k : ℤ) : RollName k none (strName (k, .unknown)) := by
  have e : strName (k, .unknown) = if k = 0 then "d{0..0}".toList else strLhs k ++ "d{?}".toList := rfl
  rw [e]
  split
  · rename_i h; subst h; exact .none
  · rename_i h; exact .other k _ (strLhs_text k) h

theorem nameLhs_eq (n : HArg) : nameLhs n = shownCount n := by cases n <;> rfl

/-- The name of the object a roll returns. -/
theorem rollH_name {st : Settings} {n d : HArg} {h h' : Heap} {a : ℕ} (hr : rollH st n d h = (.ok (some a), h')) :
    ∃ h1 rhs, rollInnerH st n d h = (.ok a, h1) ∧ (nameRhs d h1).1 = .ok rhs ∧
      (a < h1.cells.length → strOf h' a = some (strName (shownCount n, rhs))) ∧ h'.cells.length = h1.cells.length := by
  have hd : d.isEmptySeq = false := by
    cases hd : d.isEmptySeq with
    | false => rfl
    | true =>
      unfold rollH at hr
      rw [hd] at hr
      simp only [if_true] at hr
      cases hr
  rw [rollH_run _ _ _ hd, rollNamed_eq] at hr
  cases hx : rollInnerH st n d h with
  | mk x h1 =>
    rw [hx] at hr
    cases x with
    | error e => simp [Except.map] at hr
    | ok r =>
      simp only at hr
      cases hy : (nameRhs d h1).1 with
      | error e => rw [hy] at hr; simp [Except.map] at hr
      | ok rhs =>
        rw [hy] at hr
        simp only [Except.map, Prod.mk.injEq, Except.ok.injEq, Option.some.injEq] at hr
        obtain ⟨rfl, rfl⟩ := hr
        refine ⟨h1, rhs, rfl, hy, fun hlt => ?_, by simp⟩
        unfold strOf
        rw [List.getElem?_modify, ← nameLhs_eq]
        simp [List.getElem?_eq_getElem hlt]

/-- C56. The name of `roll(n, m)` for an int `m`: `n` dice with `m` sides, whatever `n` is (a sequence counts as its sum, a die as 0). -/
theorem C56_sides (st : Settings) (n : HArg) (m : ℤ) (h h' : Heap) (a : ℕ) (hr : rollH st n (.num m) h = (.ok (some a), h'))
    (ha : a < h'.cells.length) : ∃ t, strOf h' a = some t ∧ RollName (shownCount n) (some m) t := by
  obtain ⟨h1, rhs, _, h2, h3, h4⟩ := rollH_name hr
  cases h2
  exact ⟨_, h3 (h4 ▸ ha), strName_num _ _⟩

/-- C56. The name of `roll(n, s)` for a sequence of faces does not show them. -/
theorem C56_faces (st : Settings) (n : HArg) (s : List ℤ) (hs : s ≠ []) (h h' : Heap) (a : ℕ) (hr : rollH st n (.seq s) h = (.ok (some a), h'))
    (ha : a < h'.cells.length) : ∃ t, strOf h' a = some t ∧ RollName (shownCount n) none t := by
  obtain ⟨h1, rhs, _, h2, h3, h4⟩ := rollH_name hr
  have : rhs = .unknown := by
    change (Except.ok (if s.length = 0 then Rhs.empty else .unknown) : Except Err Rhs) = .ok rhs at h2
    rw [if_neg (by simpa using hs)] at h2
    cases h2
    rfl
  subst this
  exact ⟨_, h3 (h4 ▸ ha), strName_unknown _⟩

/-- The sides shown for a die that is itself the result of a roll: those of a single plain die. -/
def shownSides : ℤ × Rhs → Option ℤ
  | (k, .num m) => if k = 1 then some m else none
  | _ => none

theorem strName_of_die (k : ℤ) (nm : ℤ × Rhs) : RollName k (shownSides nm) (strName (k, nameOfDie nm)) := by
  obtain ⟨j, r⟩ := nm
  cases r with
  | num m =>
    unfold shownSides
    by_cases hj : j = 1
    · subst hj
      exact strName_num k m
    · simp only [if_neg hj]
      have : nameOfDie (j, .num m) = .unknown := by
        unfold nameOfDie
        split
        · rename_i h; cases h; exact absurd rfl hj
        · rfl
      rw [this]
      exact strName_unknown k
  | unknown =>
    have : nameOfDie (j, .unknown) = .unknown := by unfold nameOfDie; split <;> simp_all
    rw [this]
    exact strName_unknown k
  | empty =>
    have : nameOfDie (j, .empty) = .unknown := by unfold nameOfDie; split <;> simp_all
    rw [this]
    exact strName_unknown k

/-- C56. The name of `roll(n, d)` for an int `n` and a die `d` shows the sides of `d` if `d` was named as a single plain die (so that
`2d(1d6)` shows as `2d6`). -/
theorem C56_die (st : Settings) (n : ℤ) (d : ℕ) (h h' : Heap) (hw : HeapWf h) (c : Cell) (hc : h.cells[d]? = some c) (a : ℕ)
    (hr : rollH st (.num n) (.rv d) h = (.ok (some a), h')) (ha : a < h'.cells.length) :
    ∃ t, strOf h' a = some t ∧ RollName n (shownSides c.name) t := by
  obtain ⟨h1, rhs, hx, h2, h3, h4⟩ := rollH_name hr
  have hd : d < h.cells.length := by
    by_contra hd
    rw [List.getElem?_eq_none (by omega)] at hc
    cases hc
  obtain ⟨e, _, _⟩ := rollIntH_spec st n d hw hd
  rw [rollInner_rv] at hx
  rw [hx] at e
  have hc1 : h1.cells[d]? = some c := by rw [← hc]; exact e.cells d hd
  have : rhs = nameOfDie c.name := by
    have hn : nameRhs (.rv d) h1 = (.ok (nameOfDie c.name), h1) := by
      change H.bind (H.name d) _ h1 = _
      unfold H.bind H.name
      rw [hc1]
      rfl
    rw [hn] at h2
    cases h2
    rfl
  subst this
  exact ⟨_, h3 (h4 ▸ ha), strName_of_die _ _⟩

/-- C56. In particular a roll of a roll of one plain die is shown like a roll of that die. -/
theorem C56_nested (st : Settings) (n m : ℤ) (d : ℕ) (h h' : Heap) (hw : HeapWf h) (c : Cell) (hc : h.cells[d]? = some c)
    (hnm : c.name = (1, .num m)) (a : ℕ) (hr : rollH st (.num n) (.rv d) h = (.ok (some a), h')) (ha : a < h'.cells.length) :
    ∃ t, strOf h' a = some t ∧ RollName n (some m) t := by
  have := C56_die st n d h h' hw c hc a hr ha
  rwa [hnm] at this

/-- C56. Signs are lost: minus three unknown dice are shown like three, and two negative signs are not shown. -/
theorem C56_sign_lost : strName (-3, .unknown) = strName (3, .unknown) ∧ strName (-2, .num (-6)) = strName (2, .num 6) := by
  decide +kernel

example : (rollH {} (.seq [1, 1]) (.num (-6)) {}).1 = .ok (some 1) ∧ strOf (rollH {} (.seq [1, 1]) (.num (-6)) {}).2 1 = some "-2d6".toList := by
  decide +kernel

end PythonDice
