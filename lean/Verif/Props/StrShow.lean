import Verif.Model.StrShow
import Verif.Proofs.StringText
import Verif.Props.StringDice
import Verif.Props.Output

/-!
# C73: how string outcomes are listed and rendered
-/

namespace PythonDice
open Spec Spec.Symbol

/-! ## The text of an outcome -/

/-- How `__repr__` writes one string. -/
def termOf (d : CoefDict) (k : PyStr) : PyStr := if StrVal.dictGet d k = 1 then k else strOfInt (StrVal.dictGet d k) ++ '*' :: k

theorem reprLoop_eq (d : CoefDict) (ks r : List PyStr) (last : PyStr) :
    StrVal.reprLoop d ks r last = (r ++ (ks.filter fun k => decide (k ≠ StrVal.constKey)).map (termOf d),
      if StrVal.constKey ∈ ks then " + ".toList ++ strOfInt (StrVal.dictGet d StrVal.constKey) else last) := by
  induction ks generalizing r last with
  | nil => simp [StrVal.reprLoop]
  | cons k ks ih =>
    rw [StrVal.reprLoop]
    by_cases hk : k = StrVal.constKey
    · subst hk
      rw [if_pos rfl, ih, List.filter_cons_of_neg (by simp), ite_self]
      simp only [List.mem_cons, true_or, if_true]
    · rw [if_neg hk, List.filter_cons_of_pos (by simpa using hk)]
      have hm : StrVal.constKey ∈ k :: ks ↔ StrVal.constKey ∈ ks := by
        rw [List.mem_cons]
        exact ⟨fun h => h.resolve_left fun e => hk e.symm, .inr⟩
      by_cases h1 : StrVal.dictGet d k = 1
      · rw [if_pos h1, ih, List.map_cons, termOf, if_pos h1]
        simp only [hm, List.append_assoc, List.singleton_append]
      · rw [if_neg h1, ih, List.map_cons, termOf, if_neg h1]
        simp only [hm, List.append_assoc, List.singleton_append]

theorem intercalate_plusJoin (l : List PyStr) : List.intercalate " + ".toList l = plusJoin l := by
  induction l with
  | nil => rfl
  | cons t l ih =>
    cases l with
    | nil => simp [List.intercalate, plusJoin]
    | cons u l =>
      rw [plusJoin_cons, ← ih]
      simp [List.intercalate]

theorem coef_some {a : StrVal} (ha : a.WF) {k : PyStr} : k ∈ a.keys → a.coef k = some (StrVal.dictGet a.data k) := fun h =>
  StrVal.lookup_some (ha.perm.mem_iff.1 h)

theorem mem_keys_iff {a : StrVal} (ha : a.WF) (k : PyStr) : k ∈ a.keys ↔ a.coef k ≠ none := by
  rw [ha.perm.mem_iff, StrVal.coef, ne_eq, StrVal.lookup_eq_none, not_not]

theorem keys_sorted {a : StrVal} (ha : a.WF) : a.keys.Pairwise (· < ·) := by
  have h1 : a.keys.Pairwise (· ≤ ·) := by rw [ha.keys]; exact List.pairwise_insertionSort _ _
  have h2 : a.keys.Nodup := ha.perm.nodup_iff.2 ha.nodup
  exact (h1.and h2).imp fun h => lt_of_le_of_ne h.1 h.2

theorem repr_text {a : StrVal} (ha : a.WF) : SumText a.coef a.repr := by
  refine ⟨a.keys.filter fun k => decide (k ≠ StrVal.constKey), (a.keys.filter fun k => decide (k ≠ StrVal.constKey)).map (termOf a.data),
    if StrVal.constKey ∈ a.keys then " + ".toList ++ strOfInt (StrVal.dictGet a.data StrVal.constKey) else [], (keys_sorted ha).filter _, ?_, ?_, ?_, ?_⟩
  · intro k
    rw [List.mem_filter, mem_keys_iff ha, decide_eq_true_eq, and_comm]
    rfl
  · rw [List.forall₂_map_right_iff, List.forall₂_same]
    intro k hk
    refine ⟨_, coef_some ha (List.mem_filter.1 hk).1, ?_⟩
    unfold TermText termOf
    split
    · rfl
    · exact ⟨_, strOfInt_text _, rfl⟩
  · by_cases h : StrVal.constKey ∈ a.keys
    · rw [if_pos h, show a.coef numberKey = _ from coef_some ha h]
      exact ⟨_, strOfInt_text _, rfl⟩
    · rw [if_neg h, show a.coef numberKey = none from not_not.1 fun h' => h ((mem_keys_iff ha _).2 h')]
      rfl
  · unfold StrVal.repr
    rw [reprLoop_eq, intercalate_plusJoin, List.nil_append]

/-! ## Strings that look like numbers -/

theorem mem_takeWhile_ok {α : Type} {p : α → Bool} {l : List α} : ∀ c ∈ l.takeWhile p, p c = true := by
  induction l with
  | nil => simp
  | cons x l ih =>
    rw [List.takeWhile_cons]
    split
    · rename_i h
      intro c hc
      rcases List.mem_cons.1 hc with rfl | hc
      · exact h
      · exact ih c hc
    · simp

theorem while_self {α : Type} {p : α → Bool} {l : List α} (h : ∀ c ∈ l, p c = true) : l.takeWhile p = l ∧ l.dropWhile p = [] := by
  have h1 := List.takeWhile_append_of_pos (l₂ := []) h
  have h2 := List.dropWhile_append_of_pos (l₂ := []) h
  rw [List.append_nil] at h1 h2
  rw [h1, h2]
  simp

theorem unsigned_iff {dig : Char → Bool} (D : DigitClass dig) (s : PyStr) : StrVal.unsignedRe dig s = true ↔
    ∃ a b nl, s = a ++ b ++ nl ∧ a ≠ [] ∧ (∀ c ∈ a, dig c = true) ∧ (b = [] ∨ ∃ f, b = '.' :: f ∧ f ≠ [] ∧ ∀ c ∈ f, dig c = true) ∧
      (nl = [] ∨ nl = ['\n']) := by
  have hdot : dig '.' = false := D.other '.' (by simp)
  have hnl : dig '\n' = false := D.other '\n' (by simp)
  constructor
  · intro h
    unfold StrVal.unsignedRe at h
    rw [Bool.and_eq_true, decide_eq_true_eq] at h
    obtain ⟨h1, h2⟩ := h
    have e := List.takeWhile_append_dropWhile (p := dig) (l := s)
    split at h2
    · rename_i hd
      exact ⟨s.takeWhile dig, [], [], by rw [hd, List.append_nil] at e; rw [e, List.append_nil, List.append_nil], h1, mem_takeWhile_ok, .inl rfl, .inl rfl⟩
    · rename_i hd
      exact ⟨s.takeWhile dig, [], ['\n'], by rw [hd] at e; rw [List.append_nil, e], h1, mem_takeWhile_ok, .inl rfl, .inr rfl⟩
    · rename_i t hd
      simp only [Bool.and_eq_true, Bool.or_eq_true, decide_eq_true_eq] at h2
      have e' := List.takeWhile_append_dropWhile (p := dig) (l := t)
      refine ⟨s.takeWhile dig, '.' :: t.takeWhile dig, t.dropWhile dig, ?_, h1, mem_takeWhile_ok, .inr ⟨_, rfl, h2.1, mem_takeWhile_ok⟩, h2.2⟩
      conv_lhs => rw [← e, hd, ← e']
      simp
    · cases h2
  · rintro ⟨a, b, nl, rfl, ha, had, hb, hnl'⟩
    have t1 : ∀ x : PyStr, (x.takeWhile dig = [] → (a ++ x).takeWhile dig = a) ∧ (x.dropWhile dig = x → (a ++ x).dropWhile dig = x) := fun x =>
      ⟨fun h => by rw [List.takeWhile_append_of_pos had, h, List.append_nil], fun h => by rw [List.dropWhile_append_of_pos had, h]⟩
    have key : (b ++ nl).takeWhile dig = [] ∧ (b ++ nl).dropWhile dig = b ++ nl := by
      rcases hb with rfl | ⟨f, rfl, -, -⟩
      · rcases hnl' with rfl | rfl
        · exact ⟨rfl, rfl⟩
        · exact ⟨List.takeWhile_cons_of_neg (by simp [hnl]), List.dropWhile_cons_of_neg (by simp [hnl])⟩
      · exact ⟨List.takeWhile_cons_of_neg (by simp [hdot]), List.dropWhile_cons_of_neg (by simp [hdot])⟩
    unfold StrVal.unsignedRe
    rw [List.append_assoc, (t1 _).1 key.1, (t1 _).2 key.2, Bool.and_eq_true, decide_eq_true_eq]
    refine ⟨ha, ?_⟩
    rcases hb with rfl | ⟨f, rfl, hf, hfd⟩
    · rcases hnl' with rfl | rfl <;> rfl
    · rcases hnl' with rfl | rfl
      · simp only [List.append_nil, Bool.and_eq_true, Bool.or_eq_true, decide_eq_true_eq]
        obtain ⟨e1, e2⟩ := while_self hfd
        exact ⟨by rw [e1]; exact hf, .inl e2⟩
      · simp only [List.cons_append, Bool.and_eq_true, Bool.or_eq_true, decide_eq_true_eq]
        rw [List.takeWhile_append_of_pos hfd, List.dropWhile_append_of_pos hfd]
        refine ⟨?_, .inr (by simp [List.dropWhile, hnl])⟩
        intro h
        exact hf (List.append_eq_nil_iff.1 h).1

theorem numberRe_iff {dig : Char → Bool} (D : DigitClass dig) (s : PyStr) : StrVal.numberRe dig s = true ↔ Numeral dig s := by
  have hm : dig '-' = false := D.other '-' (by simp)
  constructor
  · intro h
    unfold StrVal.numberRe at h
    split at h
    · obtain ⟨a, b, nl, rfl, h1⟩ := (unsigned_iff D _).1 h
      exact ⟨['-'], a, b, nl, by simp, .inr rfl, h1⟩
    · obtain ⟨a, b, nl, rfl, h1⟩ := (unsigned_iff D _).1 h
      exact ⟨[], a, b, nl, by simp, .inl rfl, h1⟩
  · rintro ⟨sign, a, b, nl, rfl, hs, h1⟩
    have hu : StrVal.unsignedRe dig (a ++ b ++ nl) = true := (unsigned_iff D _).2 ⟨a, b, nl, rfl, h1⟩
    rcases hs with rfl | rfl
    · rw [List.nil_append]
      cases a with
      | nil => exact absurd rfl h1.1
      | cons c a =>
        have hc : c ≠ '-' := by
          rintro rfl
          have := h1.2.1 '-' List.mem_cons_self
          rw [hm] at this
          cases this
        unfold StrVal.numberRe
        split
        · rename_i e
          simp only [List.cons_append, List.cons.injEq] at e
          exact absurd e.1 hc
        · exact hu
    · exact hu

theorem isNumber_iff {dig : Char → Bool} (D : DigitClass dig) {a : StrVal} (ha : a.WF) : a.isNumber dig = true ↔ OneNumeral dig a.coef := by
  unfold StrVal.isNumber OneNumeral
  simp only [← mem_keys_iff ha]
  constructor
  · intro h
    split at h
    · rename_i k hk
      exact ⟨k, (numberRe_iff D k).1 h, fun j => by rw [hk, List.mem_singleton]⟩
    · cases h
  · rintro ⟨s, hs, h⟩
    have hks : a.keys = [s] := by
      have k1 := keys_sorted ha
      match hk : a.keys, h, k1 with
      | [], h, _ => exact absurd ((h s).2 rfl) (by simp)
      | [x], h, _ => rw [(h x).1 List.mem_cons_self]
      | x :: y :: l, h, k1 =>
        have e1 := (h x).1 List.mem_cons_self
        have e2 := (h y).1 (List.mem_cons_of_mem _ List.mem_cons_self)
        rw [e1, e2, List.pairwise_cons] at k1
        exact absurd (k1.1 s List.mem_cons_self) (lt_irrefl _)
    rw [hks]
    exact (numberRe_iff D s).2 hs

/-! ## C73 -/

/-- C73. An int is listed as it is; a string outcome as a text that names its strings in ascending order, each with how often it occurs, then the number
that was added; between quotes if it is one string that looks like a number. -/
theorem C73_text (dig : Char → Bool) (D : DigitClass dig) (a : Out) (ha : BuiltOut a) :
    Shows dig a.content (a.label dig).shown ∧ ∀ n, a.label dig = .num n ↔ a.content = .inl n := by
  cases a with
  | num m => exact ⟨strOfInt_text m, fun n => by simp [Out.label, Out.content]⟩
  | str s =>
    have hw : s.WF := ha.wf
    change Shows dig (.inr s.coef) (Out.Label.shown (if s.isNumber dig then .text ('"' :: s.repr ++ ['"']) else .text s.repr)) ∧
      ∀ n, (if s.isNumber dig then Out.Label.text ('"' :: s.repr ++ ['"']) else .text s.repr) = .num n ↔ _
    split
    · rename_i h
      exact ⟨⟨s.repr, repr_text hw, .inl ⟨(isNumber_iff D hw).1 h, rfl⟩⟩, fun n => by simp [Out.content]⟩
    · rename_i h
      exact ⟨⟨s.repr, repr_text hw, .inr ⟨fun h' => h ((isNumber_iff D hw).2 h'), rfl⟩⟩, fun n => by simp [Out.content]⟩

/-- C73. Different outcomes are shown differently.  Missing: strings that begin with something else than a letter, or that contain `+` or `*` (see the
counterexamples), other than single strings that look like numbers. -/
theorem C73_distinct_partial (dig : Char → Bool) (D : DigitClass dig) (a b : Out) (ha : BuiltOut a) (hb : BuiltOut b) (ra : Readable dig a.content)
    (rb : Readable dig b.content) (h : (a.label dig).shown = (b.label dig).shown) : Out.eq a b = true := by
  rw [eq_iff_content ha hb]
  exact shows_inj D ra rb (C73_text dig D a ha).1 (h ▸ (C73_text dig D b hb).1)

/-! ## The list of outcomes and probabilities -/

theorem canon_nodup {r : RV Out} (hs : r.vals.Pairwise (fun a b => Out.cmp .lt a b = true)) : (r.vals.map Out.canon).Nodup := by
  rw [List.Nodup, List.pairwise_map]
  refine hs.imp fun {a b} h => ?_
  rw [Out.cmp_eq] at h
  have : a.canon < b.canon := by simpa [CmpOp.run] using h
  exact ne_of_lt this

theorem out_fst (r : RV Out) (h : r.vals.length = r.probs.length) : r.pairs.map (·.1) = r.vals := by
  rw [RV.pairs, List.map_fst_zip]; omega

theorem sumProbs_mass (r : RV Out) (hl : r.vals.length = r.probs.length) : (r.sumProbs : ℚ) = mass r.pairs := by
  rw [mass_eq_sum, RV.pairs, List.map_snd_zip (by omega)]; rfl

theorem out_weight {r : RV Out} (hb : ∀ a ∈ r.vals, BuiltOut a) (hl : r.vals.length = r.probs.length)
    (hs : r.vals.Pairwise (fun a b => Out.cmp .lt a b = true)) {v : Out} {p : ℕ} (h : (v, p) ∈ r.pairs) :
    Pr r.pairs (fun a => Out.eq a v = true) = (p : ℚ) / r.sumProbs := by
  have hbp : ∀ x ∈ r.pairs, BuiltOut x.1 := fun x hx => hb _ (List.of_mem_zip hx).1
  have hv : BuiltOut v := hbp _ h
  have e1 : wsum r.pairs (fun a => if Out.eq a v = true then 1 else 0) = (weightOf (r.pairs.map fun x => (x.1.canon, x.2)) v.canon : ℚ) := by
    rw [RV.weightOf_eq_wsum, wsum_canon r.pairs hbp]
    refine wsum_congr fun x hx _ => ?_
    simp only [Out.eq_iff (hbp x hx).wf hv.wf]
    congr
  have hnd : ((r.pairs.map fun x => (x.1.canon, x.2)).map (·.1)).Nodup := by
    rw [List.map_map]
    have : r.pairs.map ((fun x : Out.Canon × ℕ => x.1) ∘ fun x : Out × ℕ => (x.1.canon, x.2)) = (r.pairs.map (·.1)).map Out.canon := by
      rw [List.map_map]; rfl
    rw [this, out_fst r hl]
    exact canon_nodup hs
  have e2 := RV.weightOf_of_mem hnd (List.mem_map.2 ⟨_, h, rfl⟩)
  rw [Pr, Ex, e1, sumProbs_mass r hl]
  exact congrArg (fun k : ℕ => (k : ℚ) / mass r.pairs) e2

/-- The exact probability of each outcome, rounded, with its label. -/
def listed (dig : Char → Bool) (r : RV Out) : List (Out.Label × ℚ) :=
  r.vals.map fun v => (v.label dig, dbl (Pr r.pairs (fun a => Out.eq a v = true)))

theorem out_valsProbs (dig : Char → Bool) {r : RV Out} (hb : ∀ a ∈ r.vals, BuiltOut a) (hl : r.vals.length = r.probs.length)
    (hs : r.vals.Pairwise (fun a b => Out.cmp .lt a b = true)) (hm : mass r.pairs ≠ 0) : Out.valsProbs dig r = .ok (listed dig r) := by
  unfold Out.valsProbs
  have h0 : r.sumProbs ≠ 0 := by
    intro h
    have := sumProbs_mass r hl
    rw [h] at this
    exact hm this.symm
  rw [mapM_ok _ (fun vp => (vp.1.label dig, dbl (Pr r.pairs (fun a => Out.eq a vp.1 = true))))]
  · have := List.map_map (g := fun v : Out => (v.label dig, dbl (Pr r.pairs (fun a => Out.eq a v = true)))) (f := Prod.fst) (l := r.pairs)
    rw [out_fst r hl] at this
    exact congrArg _ this.symm
  · rintro ⟨v, p⟩ h
    rw [if_neg h0, out_weight hb hl hs h]

theorem pr_unit {α : Type} (l : List (α × ℕ)) (p : α → Prop) [DecidablePred p] : 0 ≤ Pr l p ∧ Pr l p ≤ 1 := by
  have hm : 0 ≤ mass l := wsum_nonneg fun _ _ => by norm_num
  have h0 : 0 ≤ wsum l (fun v => if p v then 1 else 0) := wsum_nonneg fun x _ => by split <;> norm_num
  have h1 : wsum l (fun v => if p v then 1 else 0) ≤ mass l := wsum_mono fun x _ => by split <;> norm_num
  refine ⟨div_nonneg h0 hm, ?_⟩
  rw [Pr, Ex]
  exact div_le_one_of_le₀ h1 hm

/-- C73. Every outcome is listed once, in ascending order, with its label and its probability rounded to the nearest double. -/
theorem C73_pdf (dig : Char → Bool) (r : RV Out) (hb : ∀ a ∈ r.vals, BuiltOut a) (hl : r.vals.length = r.probs.length)
    (hs : r.vals.Pairwise (fun a b => Out.cmp .lt a b = true)) (hm : mass r.pairs ≠ 0) :
    ∃ l, Out.getValsProbs dig r 0 = .ok l ∧
      List.Forall₂ (fun v x => x.1 = v.label dig ∧ NearestDouble (Pr r.pairs (fun a => Out.eq a v = true)) x.2) r.vals l := by
  refine ⟨listed dig r, ?_, ?_⟩
  · unfold Out.getValsProbs
    rw [if_neg (by norm_num), out_valsProbs dig hb hl hs hm]
    rfl
  · unfold listed
    rw [List.forall₂_map_right_iff, List.forall₂_same]
    intro v _
    obtain ⟨h0, h1⟩ := pr_unit r.pairs (fun a => Out.eq a v = true)
    exact ⟨rfl, dbl_nearest (unit_lt_overflow h0 h1)⟩

/-! ## The cut -/

/-- The outcome with number `z`, counted from 1. -/
def outAt (r : RV Out) (z : ℤ) : Out := r.vals.getD (z - 1).toNat (.num 0)

/-- The die with the numbers of the outcomes as faces. -/
def numbered (r : RV Out) : RV ℤ := { vals := (List.range r.vals.length).map fun i : ℕ => (i : ℤ) + 1, probs := r.probs }

theorem numbered_vals (r : RV Out) : (numbered r).vals.map (outAt r) = r.vals := by
  rw [numbered, List.map_map]
  refine List.ext_getElem (by simp) fun i h1 h2 => ?_
  simp [outAt, h2]

theorem numbered_pairs (r : RV Out) : (numbered r).pairs.map (fun x => (outAt r x.1, x.2)) = r.pairs := by
  have h := List.zip_map_left (f := outAt r) (l₁ := (numbered r).vals) (l₂ := r.probs)
  rw [numbered_vals] at h
  rw [RV.pairs, RV.pairs, h]
  rfl

theorem numbered_Pr (r : RV Out) (p : Out → Prop) [DecidablePred p] : Pr (numbered r).pairs (fun z => p (outAt r z)) = Pr r.pairs p := by
  have h : ∀ g : Out → ℚ, wsum r.pairs g = wsum (numbered r).pairs fun z => g (outAt r z) := fun g => by
    conv_lhs => rw [← numbered_pairs]
    exact wsum_map _ (outAt r) g
  rw [Pr, Pr, Ex, Ex, mass, mass, h, h]

theorem numbered_mem {r : RV Out} {z : ℤ} (h : z ∈ (numbered r).vals) : ∃ i : ℕ, i < r.vals.length ∧ z = (i : ℤ) + 1 := by
  obtain ⟨i, hi, rfl⟩ := List.mem_map.1 h
  exact ⟨i, List.mem_range.1 hi, rfl⟩

theorem numbered_proper {r : RV Out} (hl : r.vals.length = r.probs.length) (hm : mass r.pairs ≠ 0) : (numbered r).Proper := by
  have hmm : mass (numbered r).pairs = mass r.pairs := by
    rw [mass, mass]
    conv_rhs => rw [← numbered_pairs]
    exact (wsum_map (numbered r).pairs (outAt r) (fun _ => 1)).symm
  refine ⟨by simp [numbered, hl], ?_, ?_, by rw [hmm]; exact hm⟩
  · rw [numbered, List.pairwise_map]
    exact List.pairwise_lt_range.imp fun h => by omega
  · intro h
    simp only [numbered, List.map_eq_nil_iff, List.range_eq_nil] at h
    apply hm
    rw [List.length_eq_zero_iff] at h
    rw [RV.pairs, h]
    rfl

theorem out_at {r : RV Out} (hb : ∀ a ∈ r.vals, BuiltOut a) (hs : r.vals.Pairwise (fun a b => Out.cmp .lt a b = true)) {y z : ℤ}
    (hy : y ∈ (numbered r).vals) (hz : z ∈ (numbered r).vals) : (Out.eq (outAt r y) (outAt r z) = true ↔ y = z) := by
  obtain ⟨i, hi, rfl⟩ := numbered_mem hy
  obtain ⟨j, hj, rfl⟩ := numbered_mem hz
  have e : ∀ k : ℕ, (hk : k < r.vals.length) → outAt r ((k : ℤ) + 1) = r.vals[k] := fun k hk => by simp [outAt, hk]
  rw [e i hi, e j hj, Out.eq_iff (hb _ (List.getElem_mem _)).wf (hb _ (List.getElem_mem _)).wf]
  have hnd := canon_nodup hs
  have := hnd.getElem_inj_iff (i := i) (hi := by simpa using hi) (j := j) (hj := by simpa using hj)
  simp only [List.getElem_map] at this
  rw [this]
  omega

theorem outAt_mem {r : RV Out} {z : ℤ} (h : z ∈ (numbered r).vals) : outAt r z ∈ r.vals := by
  have := List.mem_map_of_mem (f := outAt r) h
  rwa [numbered_vals] at this

theorem listed_numbered (dig : Char → Bool) {r : RV Out} (hb : ∀ a ∈ r.vals, BuiltOut a) (hs : r.vals.Pairwise (fun a b => Out.cmp .lt a b = true)) :
    listed dig r = (shown (numbered r)).map fun x => ((outAt r x.1).label dig, x.2) := by
  unfold listed shown
  rw [List.map_map]
  conv_lhs => rw [← numbered_vals r, List.map_map]
  refine List.map_congr_left fun z hz => ?_
  simp only [Function.comp_apply]
  rw [← numbered_Pr r]
  have : Pr (numbered r).pairs (fun y => Out.eq (outAt r y) (outAt r z) = true) = Pr (numbered r).pairs (· = z) := by
    unfold Pr Ex
    congr 1
    refine wsum_congr fun x hx _ => ?_
    simp only [out_at hb hs (List.of_mem_zip hx).1 hz]
  rw [this]

/-- What is cut depends on the labels only through which of them are equal. -/
theorem accum_map (e : ℤ → Out.Label) (x : ℤ × ℚ) (l : List (ℤ × ℚ)) :
    Out.accumProbs (e x.1, x.2) (l.map fun y => (e y.1, y.2)) = (RV.accumProbs x l).map fun y => (e y.1, y.2) := by
  induction l generalizing x with
  | nil => rfl
  | cons y l ih =>
    rw [List.map_cons, Out.accumProbs, RV.accumProbs, List.map_cons]
    congr 1
    exact ih (y.1, dbl (x.2 + y.2))

theorem valsToCut_map (e : ℤ → Out.Label) (h0 : e 0 = .num 0) (l : List (ℤ × ℚ)) (cut : ℚ) :
    Out.valsToCut (l.map fun y => (e y.1, y.2)) cut = (RV.valsToCut l cut).map e := by
  unfold Out.valsToCut RV.valsToCut
  rw [← List.map_insertionSort (r := fun a b : ℤ × ℚ => a.2 ≤ b.2) (s := fun a b : Out.Label × ℚ => a.2 ≤ b.2) (fun y : ℤ × ℚ => (e y.1, y.2)) l
    (fun a _ b _ => Iff.rfl)]
  have := accum_map e (0, 0) (l.insertionSort fun a b => a.2 ≤ b.2)
  simp only [h0] at this
  rw [this, List.filter_map, List.map_map, List.map_map]
  rfl

theorem valsToCut_mem {l : List (ℤ × ℚ)} {cut : ℚ} {z : ℤ} (h : z ∈ RV.valsToCut l cut) : z = 0 ∨ z ∈ l.map (·.1) := by
  unfold RV.valsToCut at h
  obtain ⟨y, hy, rfl⟩ := List.mem_map.1 h
  have key : ∀ (x : ℤ × ℚ) (m : List (ℤ × ℚ)), ∀ y ∈ RV.accumProbs x m, y.1 = x.1 ∨ y.1 ∈ m.map (·.1) := by
    intro x m
    induction m generalizing x with
    | nil => intro y hy; simp only [RV.accumProbs, List.mem_singleton] at hy; exact .inl (by rw [hy])
    | cons a m ih =>
      intro y hy
      rw [RV.accumProbs, List.mem_cons] at hy
      rcases hy with rfl | hy
      · exact .inl rfl
      · rcases ih _ y hy with h | h
        · exact .inr (by rw [h]; exact List.mem_cons_self)
        · exact .inr (by rw [List.map_cons]; exact List.mem_cons_of_mem _ h)
  rcases key _ _ y (List.mem_filter.1 hy).1 with h | h
  · exact .inl h
  · refine .inr ?_
    rw [List.mem_map] at h ⊢
    obtain ⟨b, hb, e⟩ := h
    exact ⟨b, (List.perm_insertionSort _ _).mem_iff.1 hb, e⟩

/-- C73. With a cut the list is part of the whole list, no outcome left out is more likely than one that is listed, and the outcomes left out have a
total probability below the cut (up to rounding).  Missing: dice with the number 0 as an outcome, and strings that are not told apart. -/
theorem C73_cut_partial (dig : Char → Bool) (D : DigitClass dig) (r : RV Out) (hb : ∀ a ∈ r.vals, BuiltOut a) (hl : r.vals.length = r.probs.length)
    (hs : r.vals.Pairwise (fun a b => Out.cmp .lt a b = true)) (hm : mass r.pairs ≠ 0) (hr : ∀ a ∈ r.vals, Readable dig a.content)
    (hz : ∀ a ∈ r.vals, a ≠ .num 0) (cut : ℚ) (hc0 : 0 < cut) (hc1 : cut < 1) :
    ∃ l, Out.getValsProbs dig r cut = .ok l ∧ (∃ full, Out.getValsProbs dig r 0 = .ok full ∧ l.Sublist full) ∧
      (∀ v x, v ∈ r.vals → v.label dig ∉ l.map (·.1) → x ∈ l → dbl (Pr r.pairs (fun a => Out.eq a v = true)) ≤ x.2) ∧
      Pr r.pairs (fun v => v.label dig ∉ l.map (·.1)) < cut + r.vals.length / 2 ^ 51 := by
  have hn := numbered_proper hl hm
  have h0n : (0 : ℤ) ∉ (numbered r).vals := fun h => by
    obtain ⟨i, _, e⟩ := numbered_mem h
    omega
  obtain ⟨l, c1, c2, c3, c4⟩ := C27_cut_partial (numbered r) hn cut hc0 hc1 h0n
  have hlab : ∀ y ∈ (numbered r).vals, ∀ z ∈ (numbered r).vals, (outAt r y).label dig = (outAt r z).label dig → y = z := by
    intro y hy z hz' h
    refine (out_at hb hs hy hz').1 (C73_distinct_partial dig D _ _ (hb _ (outAt_mem hy)) (hb _ (outAt_mem hz')) (hr _ (outAt_mem hy)) (hr _ (outAt_mem hz')) ?_)
    rw [h]
  let e : ℤ → Out.Label := fun z => if z = 0 then .num 0 else (outAt r z).label dig
  have hnz : ∀ z ∈ (numbered r).vals, z ≠ 0 := fun z hz' h => h0n (h ▸ hz')
  have he : ∀ z ∈ (numbered r).vals, e z = (outAt r z).label dig := fun z hz' => if_neg (hnz z hz')
  have hinj : ∀ y ∈ (numbered r).vals, ∀ z, (z = 0 ∨ z ∈ (numbered r).vals) → e z = e y → z = y := by
    intro y hy z hz' h
    rcases hz' with rfl | hz'
    · rw [he y hy] at h
      have h' : (outAt r y).label dig = .num 0 := h.symm
      have := ((C73_text dig D (outAt r y) (hb _ (outAt_mem hy))).2 0).1 h'
      refine absurd ?_ (hz _ (outAt_mem hy))
      cases hq : outAt r y with
      | num k => rw [hq] at this; simp only [Out.content, Sum.inl.injEq] at this; rw [this]
      | str k => rw [hq] at this; simp [Out.content] at this
    · exact hlab z hz' y hy (by rw [← he z hz', ← he y hy, h])
  have hfst : (shown (numbered r)).map (·.1) = (numbered r).vals := by
    unfold shown
    rw [List.map_map]
    exact List.map_id _
  have hlist : listed dig r = (shown (numbered r)).map fun x => (e x.1, x.2) := by
    rw [listed_numbered dig hb hs]
    exact List.map_congr_left fun x hx => by rw [he x.1 (shown_mem hx).1]
  have hget : Out.getValsProbs dig r cut = .ok (l.map fun x => (e x.1, x.2)) := by
    unfold Out.getValsProbs
    rw [if_neg (not_not.2 ⟨hc0.le, hc1⟩), out_valsProbs dig hb hl hs hm]
    change (if 0 < cut then _ else _) = _
    rw [if_pos hc0]
    unfold RV.getValsProbs at c1
    rw [if_neg (not_not.2 ⟨hc0.le, hc1⟩), valsProbs_eq hn] at c1
    change (if 0 < cut then _ else _) = _ at c1
    rw [if_pos hc0] at c1
    have c1 : (shown (numbered r)).filter (fun x => decide (x.1 ∉ RV.valsToCut (shown (numbered r)) cut)) = l := Except.ok.inj c1
    rw [← c1, hlist, valsToCut_map e rfl]
    change Except.ok _ = Except.ok _
    congr 1
    rw [List.filter_map]
    congr 1
    refine List.filter_congr fun x hx => ?_
    simp only [Function.comp_apply, List.mem_map, not_exists, not_and, decide_eq_decide]
    constructor
    · intro h hc
      exact h x.1 hc rfl
    · intro h z hz' hez
      refine h ?_
      rw [← hinj x.1 (shown_mem hx).1 z ?_ hez]
      · exact hz'
      · have := valsToCut_mem hz'
        rwa [hfst] at this
  have hlsub : ∀ x ∈ l, x.1 ∈ (numbered r).vals := by
    obtain ⟨full, f1, f2⟩ := c2
    have := getValsProbs_sub hn f1
    exact fun x hx => (shown_mem (this.subset (f2.subset hx))).1
  have hmem : ∀ z ∈ (numbered r).vals, ((outAt r z).label dig ∈ (l.map fun x => (e x.1, x.2)).map (·.1) ↔ z ∈ l.map (·.1)) := by
    intro z hz'
    rw [List.map_map, List.mem_map, List.mem_map]
    constructor
    · rintro ⟨x, hx, hxe⟩
      refine ⟨x, hx, hinj z hz' x.1 (.inr (hlsub x hx)) ?_⟩
      rw [he z hz']
      exact hxe
    · rintro ⟨x, hx, rfl⟩
      exact ⟨x, hx, he _ (hlsub x hx)⟩
  have hprob : ∀ z ∈ (numbered r).vals, Pr (numbered r).pairs (· = z) = Pr r.pairs (fun a => Out.eq a (outAt r z) = true) := by
    intro z hz'
    rw [← numbered_Pr r]
    unfold Pr Ex
    congr 1
    refine wsum_congr fun x hx _ => ?_
    simp only [out_at hb hs (List.of_mem_zip hx).1 hz']
  refine ⟨_, hget, ?_, ?_, ?_⟩
  · obtain ⟨full, f1, f2⟩ := c2
    refine ⟨listed dig r, ?_, ?_⟩
    · unfold Out.getValsProbs
      rw [if_neg (by norm_num), out_valsProbs dig hb hl hs hm]
      rfl
    · rw [hlist]
      exact (f2.trans (getValsProbs_sub hn f1)).map _
  · intro v x hv hvl hx
    rw [← numbered_vals r] at hv
    obtain ⟨z, hz', rfl⟩ := List.mem_map.1 hv
    obtain ⟨y, hy, rfl⟩ := List.mem_map.1 hx
    rw [← hprob z hz']
    exact c3 z y hz' (fun h => hvl ((hmem z hz').2 h)) hy
  · rw [← numbered_Pr r]
    have e1 : Pr (numbered r).pairs (fun z => (outAt r z).label dig ∉ (l.map fun x => (e x.1, x.2)).map (·.1)) =
        Pr (numbered r).pairs (fun z => z ∉ l.map (·.1)) := by
      unfold Pr Ex
      congr 1
      refine wsum_congr fun x hx _ => ?_
      simp only [hmem x.1 (List.of_mem_zip hx).1]
    rw [e1]
    have e2 : (numbered r).vals.length = r.vals.length := by simp [numbered]
    rw [← e2]
    exact c4

/-! ## Rendering -/

/-- A line of the table: the label, right-aligned to `lw` characters; the probability in percent with two decimals; a bar. -/
def LabelRow (lw blocks : ℕ) (label : PyStr) (p : ℚ) (line : PyStr) : Prop :=
  ∃ a b pct k n, line = List.replicate a ' ' ++ label ++ [':', ' '] ++ List.replicate b ' ' ++ pct ++ [' ', ' '] ++ List.replicate k '█' ∧
    a + label.length = lw ∧ HundredthsText n pct ∧ 5 ≤ b + pct.length ∧
    |(n : ℚ) / 100 - 100 * p| ≤ 1 / 200 + 1 / 2 ^ 44 ∧ |(k : ℚ) - p * blocks| ≤ 1 / 2 + blocks / 2 ^ 50

theorem label_row (lw b : ℕ) (t : Out.Label) (P : ℚ) (h0 : 0 ≤ P) (h1 : P ≤ 1) (hl : t.shown.length ≤ lw) :
    LabelRow lw b t.shown P (Out.outputRow lw b (t, dbl P)) := by
  refine ⟨lw - t.shown.length, 5 - (fixed2 (dbl (100 * dbl P))).length, fixed2 (dbl (100 * dbl P)),
    (roundHalfEven (dbl (dbl P * dbl b))).toNat, (roundHalfEven (100 * dbl (100 * dbl P))).toNat, ?_, by omega, fixed2_text _,
    by omega, (row_numbers b P h0 h1).1, (row_numbers b P h0 h1).2⟩
  simp [Out.outputRow, padLeft]

theorem newline_outRow (lw b : ℕ) (x : Out.Label × ℚ) (h : '\n' ∉ x.1.shown) : '\n' ∉ Out.outputRow lw b x := by
  unfold Out.outputRow padLeft
  simp only [List.mem_append, List.mem_replicate, List.mem_cons, List.not_mem_nil, or_false, not_or, not_and]
  exact ⟨⟨⟨⟨⟨fun _ => by decide, h⟩, by decide, by decide⟩, fun _ => by decide, newline_fixed2 _⟩, by decide, by decide⟩, fun _ => by decide⟩

theorem splitLines_rows (lw b : ℕ) (W : ℤ) (l : List (Out.Label × ℚ)) (hl : ∀ x ∈ l, '\n' ∉ x.1.shown) (pre : PyStr) (hp : '\n' ∉ pre) :
    splitLines (pre ++ (l.flatMap (fun x => '\n' :: Out.outputRow lw b x) ++ '\n' :: outputSep W)) =
      pre :: (l.map (Out.outputRow lw b) ++ [outputSep W]) := by
  induction l generalizing pre with
  | nil => rw [List.flatMap_nil, List.nil_append, splitLines_cons hp, splitLines_single (newline_sep W)]; rfl
  | cons x l ih =>
    rw [List.flatMap_cons, List.cons_append, List.cons_append, splitLines_cons hp, List.append_assoc,
      ih (fun y hy => hl y (List.mem_cons_of_mem _ hy)) _ (newline_outRow lw b x (hl x List.mem_cons_self))]
    rfl

theorem newline_repr {s : StrVal} (hw : s.WF) (hn : ∀ k, s.coef k ≠ none → '\n' ∉ k) : '\n' ∉ s.repr := by
  unfold StrVal.repr
  rw [reprLoop_eq, intercalate_plusJoin, List.nil_append]
  have key : ∀ l : List PyStr, (∀ t ∈ l, '\n' ∉ t) → '\n' ∉ plusJoin l := by
    intro l hl
    induction l with
    | nil => simp [plusJoin]
    | cons t l ih =>
      cases l with
      | nil => exact hl t List.mem_cons_self
      | cons u l =>
        rw [plusJoin_cons]
        simp only [List.mem_append, not_or]
        exact ⟨⟨hl t List.mem_cons_self, by decide⟩, ih fun x hx => hl x (List.mem_cons_of_mem _ hx)⟩
  rw [List.mem_append, not_or]
  constructor
  · refine key _ fun t ht => ?_
    obtain ⟨k, hk, rfl⟩ := List.mem_map.1 ht
    have hkn := hn k ((mem_keys_iff hw k).1 (List.mem_filter.1 hk).1)
    unfold termOf
    split
    · exact hkn
    · simp only [List.mem_append, List.mem_cons, not_or]
      exact ⟨newline_strOfInt _, by decide, hkn⟩
  · split
    · rw [List.mem_append, not_or]
      exact ⟨by decide, newline_strOfInt _⟩
    · simp

theorem newline_label (dig : Char → Bool) {a : Out} (ha : BuiltOut a) (hn : ∀ s, a = .str s → ∀ k, s.coef k ≠ none → '\n' ∉ k) :
    '\n' ∉ (a.label dig).shown := by
  cases a with
  | num m => exact newline_strOfInt m
  | str s =>
    have := newline_repr (show s.WF from ha.wf) (hn s rfl)
    change '\n' ∉ Out.Label.shown (if s.isNumber dig then .text ('"' :: s.repr ++ ['"']) else .text s.repr)
    split
    · simp only [Out.Label.shown, List.cons_append, List.mem_cons, List.mem_append, not_or, List.not_mem_nil]
      exact ⟨by decide, this, by decide, not_false⟩
    · exact this

/-- C73. Without a cut, the rendering of a die with string outcomes is a header line (the name, and `NaN ± NaN` for mean and deviation), then one line
per outcome, in ascending order, with its label, its probability and a bar, then a separator line. -/
theorem C73_lines (dig : Char → Bool) (fmt : Option ℚ → Option ℚ → List Char) (r : RV Out) (hb : ∀ a ∈ r.vals, BuiltOut a)
    (hl : r.vals.length = r.probs.length) (hs : r.vals.Pairwise (fun a b => Out.cmp .lt a b = true)) (hm : mass r.pairs ≠ 0)
    (hnl : ∀ s, .str s ∈ r.vals → ∀ k, s.coef k ≠ none → '\n' ∉ k) (named : Option PyStr) (hn : ∀ n, named = some n → '\n' ∉ n)
    (W : ℤ) (hW : W < RV.floatOverflow) :
    ∃ text rows lw, Out.outputText dig fmt r named W 0 = .ok text ∧
      splitLines text = ((named.map (· ++ [' '])).getD [] ++ "NaN ± NaN".toList) :: (rows ++ [List.replicate (W + 8).toNat '-']) ∧
      List.Forall₂ (fun v row => LabelRow lw (W - lw).toNat (v.label dig).shown (Pr r.pairs (fun a => Out.eq a v = true)) row) r.vals rows := by
  have hne : r.vals ≠ [] := by
    intro h
    exact hm (by rw [RV.pairs, h]; rfl)
  have hne' : listed dig r ≠ [] := by unfold listed; simpa using hne
  obtain ⟨lw, hlw⟩ : ∃ lw, ((listed dig r).map fun x => x.1.shown.length).max? = some lw := by
    cases h : ((listed dig r).map fun x => x.1.shown.length).max? with
    | none => rw [List.max?_eq_none_iff, List.map_eq_nil_iff] at h; exact absurd h hne'
    | some k => exact ⟨k, rfl⟩
  have hmax : ∀ x ∈ listed dig r, x.1.shown.length ≤ lw := fun x hx =>
    ((List.max?_eq_some_iff).1 hlw).2 _ (List.mem_map.2 ⟨x, hx, rfl⟩)
  have hpos : (0 : ℤ) < (RV.floatOverflow : ℤ) := by
    have h := one_lt_floatOverflow
    have h2 : (0 : ℚ) < RV.floatOverflow := lt_trans (by positivity) h
    exact_mod_cast h2
  have hblk : ¬ RV.floatOverflow ≤ (W - lw).toNat := by
    generalize RV.floatOverflow = F at *
    omega
  have h0 : r.sumProbs ≠ 0 := by
    intro h
    have := sumProbs_mass r hl
    rw [h] at this
    exact hm this.symm
  have hname : '\n' ∉ outputName named ++ Out.header fmt r := by
    rw [List.mem_append, not_or]
    constructor
    · cases named with
      | none => simp [outputName]
      | some n =>
        simp only [outputName, List.mem_append, List.mem_singleton, not_or]
        exact ⟨hn n rfl, by decide⟩
    · unfold Out.header
      rw [if_neg h0]
      decide
  have hget : Out.getValsProbs dig r (dbl (0 / 100)) = .ok (listed dig r) := by
    rw [zero_div, dbl_zero]
    unfold Out.getValsProbs
    rw [if_neg (by norm_num), out_valsProbs dig hb hl hs hm]
    rfl
  have htbl : Out.outputTable W (listed dig r) =
      .ok ((listed dig r).flatMap (fun x => '\n' :: Out.outputRow lw (W - lw).toNat x) ++ '\n' :: outputSep W) := by
    unfold Out.outputTable
    rw [hlw]
    exact if_neg hblk
  refine ⟨outputName named ++ Out.header fmt r ++ ((listed dig r).flatMap (fun x => '\n' :: Out.outputRow lw (W - lw).toNat x) ++ '\n' :: outputSep W),
    (listed dig r).map (Out.outputRow lw (W - lw).toNat), lw, ?_, ?_, ?_⟩
  · unfold Out.outputText
    rw [hget]
    change (Out.outputTable W (listed dig r) >>= _) = _
    rw [htbl]
    rfl
  · rw [splitLines_rows lw _ W _ ?_ _ hname]
    · unfold Out.header
      rw [if_neg h0]
      cases named <;> rfl
    · intro x hx
      obtain ⟨v, hv, rfl⟩ := List.mem_map.1 hx
      exact newline_label dig (hb v hv) fun s e => hnl s (e ▸ hv)
  · unfold listed
    rw [List.map_map, List.forall₂_map_right_iff, List.forall₂_same]
    intro v hv
    obtain ⟨p0, p1⟩ := pr_unit r.pairs (fun a => Out.eq a v = true)
    exact label_row lw _ (v.label dig) _ p0 p1 (hmax _ (List.mem_map.2 ⟨v, hv, rfl⟩))

/-! ## Examples and counterexamples -/

theorem digitClass_ascii : DigitClass Char.isDigit := by
  refine ⟨by decide, ?_, by decide⟩
  intro c h
  simp only [Char.isAlpha, Char.isUpper, Char.isLower, Bool.or_eq_true, Bool.and_eq_true, decide_eq_true_eq] at h
  simp only [Char.isDigit, Bool.and_eq_false_iff, decide_eq_false_iff_not]
  right
  intro h'
  rcases h with ⟨h, -⟩ | ⟨h, -⟩
  · exact absurd (UInt32.le_trans h h') (by decide)
  · exact absurd (UInt32.le_trans h h') (by decide)

/-- `"5"`, the number 5, `"b" + "a" + "b" + 3`, and `"1.5"` added to itself. -/
example : ((Out.str (.fromStr "5".toList)).label Char.isDigit).shown = "\"5\"".toList ∧ ((Out.num 5).label Char.isDigit).shown = "5".toList ∧
    ((Out.add (.str (((StrVal.fromStr "b".toList).add (.fromStr "a".toList)).add (.fromStr "b".toList))) (.num 3)).label Char.isDigit).shown =
      "a + 2*b + 3".toList ∧
    ((Out.str ((StrVal.fromStr "1.5".toList).add (.fromStr "1.5".toList))).label Char.isDigit).shown = "\"2*1.5\"".toList := by
  decide +kernel

theorem readable_ab (s : List Char) (c : Char) (h : c.isAlpha = true) (h1 : '+' ∉ c :: s) (h2 : '*' ∉ c :: s) (dig : Char → Bool) :
    Readable dig (Out.content (.str (.fromStr (c :: s)))) := by
  refine .inl fun k _ hk => ?_
  have : k = c :: s := by
    by_contra hne
    apply hk
    simp only [StrVal.coef, StrVal.fromStr, StrVal.mk']
    exact StrVal.lookup_other hne _ _
  subst this
  exact ⟨⟨c, s, rfl, h⟩, h1, h2⟩

/-- The hypotheses are met by `"5"` and `"hit!"`: a numeral and a plain string. -/
example : Readable Char.isDigit (Out.content (.str (.fromStr "hit!".toList))) ∧ Readable Char.isDigit (Out.content (.str (.fromStr "5".toList))) := by
  constructor
  · exact readable_ab "it!".toList 'h' (by decide) (by decide) (by decide) _
  · refine .inr ⟨"5".toList, ⟨[], ['5'], [], [], rfl, .inl rfl, by decide, by decide, .inl rfl, .inl rfl⟩, fun k => ?_⟩
    simp only [StrVal.coef, StrVal.fromStr, StrVal.mk']
    split
    · rename_i h; rw [h]; exact StrVal.lookup_same _ _ _
    · rename_i h; exact StrVal.lookup_other h _ _

/-- C73, counterexample: `"!" + "5"` and `"!" + 5` are different outcomes and look the same. -/
theorem C73_number_counterexample : ∃ a b : Out, BuiltOut a ∧ BuiltOut b ∧ Out.eq a b = false ∧
    (a.label Char.isDigit).shown = "! + 5".toList ∧ (b.label Char.isDigit).shown = "! + 5".toList :=
  ⟨.str ((StrVal.fromStr "!".toList).add (.fromStr "5".toList)), .str ((StrVal.fromStr "!".toList).add (.fromConst 5)),
    .str _ (.add _ _ (.str _) (.str _)), .str _ (.add _ _ (.str _) (.const _)), by decide +kernel, by decide +kernel, by decide +kernel⟩

/-- C73, counterexample: the string `"2*a"` and twice the string `"a"`; and a die with both, of which a cut of 30 percent leaves nothing although it
should leave one. -/
theorem C73_cut_counterexample : ∃ a b : Out, BuiltOut a ∧ BuiltOut b ∧ Out.eq a b = false ∧ a.label Char.isDigit = b.label Char.isDigit ∧
    ∃ r, Out.mkRV {} [a, b] [1, 3] = .ok r ∧ Out.getValsProbs Char.isDigit r (3 / 10) = .ok [] :=
  ⟨.str (.fromStr "2*a".toList), .str ((StrVal.fromStr "a".toList).add (.fromStr "a".toList)),
    .str _ (.str _), .str _ (.add _ _ (.str _) (.str _)), by decide +kernel, by decide +kernel,
    ⟨[.str (.fromStr "2*a".toList), .str ((StrVal.fromStr "a".toList).add (.fromStr "a".toList))], [1, 3], none⟩, by decide +kernel, by decide +kernel⟩

/-- The rendering of `{"a", "b", 1, 1}`, 20 characters wide. -/
example : (Out.outputText Char.isDigit (fun _ _ => []) dieAB1 (some "d".toList) 20 0).toOption.map String.ofList =
    some "d NaN ± NaN\n1: 50.00  ██████████\na: 25.00  █████\nb: 25.00  █████\n----------------------------" := by decide +kernel

/-- The die `{"a", "b", 1, 1}` with a cut of 40 percent: one of the two strings is left out. -/
example : ((Out.getValsProbs Char.isDigit dieAB1 (2 / 5)).toOption.map fun l => l.map fun x => x.1.shown) = some ["1".toList, "b".toList] ∧
    (∀ a ∈ dieAB1.vals, a ≠ .num 0) ∧ mass dieAB1.pairs ≠ 0 := by
  refine ⟨by decide +kernel, by decide +kernel, by norm_num [mass, wsum, RV.pairs, dieAB1]⟩

end PythonDice
