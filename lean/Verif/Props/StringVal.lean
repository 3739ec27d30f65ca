import Verif.Proofs.StringVal
import Verif.Props.Ctor

/-!
# C32, C33: string outcomes
-/

namespace PythonDice
open Spec

/-- The string outcomes a program can build: from a string, a number, a dictionary of coefficients, or
by addition. -/
inductive Built : StrVal → Prop
  | str (s : PyStr) : Built (StrVal.fromStr s)
  | const (n : ℤ) : Built (StrVal.fromConst n)
  | pairs (d : CoefDict) (h : (d.map (·.1)).Nodup) : Built (StrVal.fromPairs d)
  | add (a b : StrVal) (ha : Built a) (hb : Built b) : Built (a.add b)

/-- Ints, and the string outcomes a program can build. -/
inductive BuiltOut : Out → Prop
  | num (n : ℤ) : BuiltOut (.num n)
  | str (s : StrVal) (h : Built s) : BuiltOut (.str s)

theorem Built.wf {a : StrVal} (h : Built a) : a.WF := by
  induction h with
  | str s => exact StrVal.wf_fromStr s
  | const n => exact StrVal.wf_fromConst n
  | pairs d hd => exact StrVal.wf_fromPairs hd
  | add a b _ _ iha _ => exact StrVal.wf_add iha b

theorem BuiltOut.wf {a : Out} (h : BuiltOut a) : a.WF := by
  cases h with
  | num n => trivial
  | str s h => exact h.wf

theorem BuiltOut.add {a b : Out} (ha : BuiltOut a) (hb : BuiltOut b) : BuiltOut (a.add b) := by
  cases ha with
  | num m =>
    cases hb with
    | num n => exact .num _
    | str t h => exact .str _ (.add _ _ h (.const _))
  | str s h =>
    cases hb with
    | num n => exact .str _ (.add _ _ h (.const _))
    | str t h' => exact .str _ (.add _ _ h h')

/-- The number of times string `k` occurs in the outcome (`none` if it does not). -/
def StrVal.coef (a : StrVal) (k : PyStr) : Option ℤ := a.data.lookup k

theorem coef_ext_iff {a b : StrVal} : (∀ k, a.coef k = b.coef k) ↔
    (∀ k, k ∈ a.data.map (·.1) ↔ k ∈ b.data.map (·.1)) ∧
      ∀ k, StrVal.dictGet a.data k = StrVal.dictGet b.data k := by
  unfold StrVal.coef
  constructor
  · intro h
    refine ⟨fun k => ?_, fun k => by unfold StrVal.dictGet; rw [h k]⟩
    rw [← not_iff_not, ← StrVal.lookup_eq_none, ← StrVal.lookup_eq_none, h k]
  · rintro ⟨hm, hv⟩ k
    by_cases hk : k ∈ a.data.map (·.1)
    · rw [StrVal.lookup_some hk, StrVal.lookup_some ((hm k).1 hk), hv k]
    · rw [StrVal.lookup_eq_none.2 hk, StrVal.lookup_eq_none.2 fun h => hk ((hm k).2 h)]

/-- C32, equality: two string outcomes are `==` exactly when they contain the same strings with the
same coefficients; a string outcome never equals a number. -/
theorem C32_eq (a b : StrVal) (ha : Built a) (hb : Built b) :
    (Out.eq (.str a) (.str b) = true ↔ ∀ k, a.coef k = b.coef k) ∧
      ∀ n, Out.eq (.str a) (.num n) = false ∧ Out.eq (.num n) (.str a) = false := by
  refine ⟨?_, fun n => ⟨rfl, rfl⟩⟩
  rw [coef_ext_iff]
  exact StrVal.eq_iff_coef ha.wf hb.wf

/-- C32, order: `<`, `<=`, `>`, `>=` and `==` on ints and string outcomes are those of one total order
(in terms of `==`), in which numbers come before string outcomes. -/
theorem C32_order (a b c : Out) (ha : BuiltOut a) (hb : BuiltOut b) (hc : BuiltOut c) :
    -- exactly one of <, ==, >
    (Out.cmp .lt a b = true ∨ Out.eq a b = true ∨ Out.cmp .lt b a = true) ∧
    (Out.cmp .lt a b = true → Out.eq a b = false ∧ Out.cmp .lt b a = false) ∧
    (Out.eq a b = true → Out.cmp .lt a b = false ∧ Out.cmp .lt b a = false) ∧
    -- transitivity
    (Out.cmp .lt a b = true → Out.cmp .lt b c = true → Out.cmp .lt a c = true) ∧
    -- == is an equivalence that the order respects
    Out.eq a a = true ∧ (Out.eq a b = Out.eq b a) ∧
    (Out.eq a b = true → Out.eq b c = Out.eq a c ∧ Out.cmp .lt b c = Out.cmp .lt a c ∧ Out.cmp .lt c b = Out.cmp .lt c a) ∧
    -- the other operators
    (Out.cmp .le a b = (Out.cmp .lt a b || Out.eq a b)) ∧ (Out.cmp .gt a b = Out.cmp .lt b a) ∧
    (Out.cmp .ge a b = Out.cmp .le b a) := by
  have hab := Out.eq_iff ha.wf hb.wf
  have hba := Out.eq_iff hb.wf ha.wf
  have hbc := Out.eq_iff hb.wf hc.wf
  have hac := Out.eq_iff ha.wf hc.wf
  have haa := Out.eq_iff ha.wf ha.wf
  have eqb : ∀ {x y : Bool} {p q : Prop}, (x = true ↔ p) → (y = true ↔ q) → (p ↔ q) → x = y := by
    intro x y p q h1 h2 h3
    rw [Bool.eq_iff_iff, h1, h2, h3]
  refine ⟨?_, ?_, ?_, ?_, ?_, ?_, ?_, ?_, ?_, ?_⟩
  · simp only [Out.cmp_eq, CmpOp.run, decide_eq_true_eq, hab]
    exact lt_trichotomy _ _
  · simp only [Out.cmp_eq, CmpOp.run, decide_eq_true_eq, decide_eq_false_iff_not, ← Bool.not_eq_true, hab]
    exact fun h => ⟨h.ne, h.asymm⟩
  · simp only [Out.cmp_eq, CmpOp.run, decide_eq_true_eq, decide_eq_false_iff_not, hab]
    rintro h
    rw [h]; exact ⟨lt_irrefl _, lt_irrefl _⟩
  · simp only [Out.cmp_eq, CmpOp.run, decide_eq_true_eq]
    exact lt_trans
  · exact haa.2 rfl
  · exact eqb hab hba eq_comm
  · rw [hab]
    intro h
    refine ⟨eqb hbc hac (by rw [h]), ?_, ?_⟩ <;> simp only [Out.cmp_eq, h]
  · refine eqb (p := a.canon ≤ b.canon) ?_ Iff.rfl ?_
    · simp [Out.cmp_eq, CmpOp.run]
    · rw [Bool.or_eq_true, hab, Out.cmp_eq]
      simp [CmpOp.run, le_iff_lt_or_eq]
  · simp [Out.cmp_eq, CmpOp.run]
  · simp [Out.cmp_eq, CmpOp.run]

/-- C32, order: numbers are ordered as numbers and come before all string outcomes. -/
theorem C32_numbers_first (m n : ℤ) (s : StrVal) :
    (Out.cmp .lt (.num m) (.num n) = true ↔ m < n) ∧ Out.cmp .lt (.num m) (.str s) = true ∧
      Out.cmp .lt (.str s) (.num m) = false := by
  refine ⟨by simp [Out.cmp, CmpOp.run], ?_, ?_⟩
  · simp [Out.cmp, CmpOp.run, CmpOp.reflect]
  · simp [Out.cmp, CmpOp.run]

/-- C32, order: one-string outcomes are ordered alphabetically. -/
theorem C32_strings_alphabetical (s t : PyStr) :
    Out.cmp .lt (.str (.fromStr s)) (.str (.fromStr t)) = true ↔ s < t := by
  rw [Out.cmp_eq]
  simp only [CmpOp.run, decide_eq_true_eq, Out.canon, Sum.Lex.inr_lt_inr_iff, StrVal.canon, StrVal.fromStr, StrVal.mk',
    List.insertionSort_cons, List.insertionSort_nil, List.orderedInsert, List.map_cons, List.map_nil,
    List.cons_lt_cons_iff, Prod.Lex.toLex_lt_toLex]
  by_cases h : s = t
  · subst h; simp
  · simp [h]

/-- The coefficients of the sum `a + b`. -/
def coefAdd (p q : Option ℤ) : Option ℤ := match p, q with
  | none, none => none
  | _, _ => some (p.getD 0 + q.getD 0)

/-- C32, addition: the strings of `a + b` are those of `a` and those of `b`, with the coefficients
added up. -/
theorem C32_add_coef (a b : StrVal) (hb : Built b) (k : PyStr) :
    (a.add b).coef k = coefAdd (a.coef k) (b.coef k) := by
  have hg := StrVal.dictGet_addLoop a.data b.data hb.wf.nodup k
  have hm := StrVal.mem_keys_addLoop a.data b.data k
  show (StrVal.addLoop a.data b.data).lookup k = _
  unfold StrVal.coef coefAdd
  by_cases ha : k ∈ a.data.map (·.1)
  · rw [StrVal.lookup_some (hm.2 (.inl ha)), hg]
    have h1 := StrVal.lookup_some ha
    rw [h1]
    cases h2 : b.data.lookup k <;> simp [StrVal.dictGet, h2]
  · by_cases hb : k ∈ b.data.map (·.1)
    · rw [StrVal.lookup_some (hm.2 (.inr hb)), hg]
      rw [StrVal.lookup_some hb, StrVal.lookup_eq_none.2 ha]
      simp [StrVal.dictGet, StrVal.lookup_eq_none.2 ha]
    · rw [StrVal.lookup_eq_none.2 ha, StrVal.lookup_eq_none.2 hb]
      exact StrVal.lookup_eq_none.2 fun h => (hm.1 h).elim ha hb

theorem coefAdd_comm (p q : Option ℤ) : coefAdd p q = coefAdd q p := by
  cases p <;> cases q <;> simp [coefAdd, add_comm]

theorem coefAdd_assoc (p q r : Option ℤ) : coefAdd (coefAdd p q) r = coefAdd p (coefAdd q r) := by
  cases p <;> cases q <;> cases r <;> simp [coefAdd, add_assoc]

/-- C32, addition of a number counts as a string of its own, with the number as its coefficient. -/
theorem C32_add_number (a : StrVal) (n : ℤ) (k : PyStr) :
    Out.add (.str a) (.num n) = .str (a.add (.fromConst n)) ∧
    Out.add (.num n) (.str a) = .str (a.add (.fromConst n)) ∧
    (StrVal.fromConst n).coef k = if k = "_UNIQUE_STRING".toList then some n else none := by
  refine ⟨rfl, rfl, ?_⟩
  show List.lookup k [(StrVal.constKey, n)] = _
  by_cases h : k = StrVal.constKey
  · rw [if_pos (by exact h), h, StrVal.lookup_same]
  · rw [if_neg (by exact h), StrVal.lookup_other h]; rfl

/-- The content of an outcome: a number, or the coefficients of the strings. -/
def Out.content : Out → ℤ ⊕ (PyStr → Option ℤ)
  | .num n => .inl n
  | .str s => .inr s.coef

theorem eq_iff_content {a b : Out} (ha : BuiltOut a) (hb : BuiltOut b) :
    Out.eq a b = true ↔ a.content = b.content := by
  cases ha with
  | num m =>
    cases hb with
    | num n => simp [Out.eq, Out.content]
    | str t h => simp [Out.eq, Out.content]
  | str s h =>
    cases hb with
    | num n => simp [Out.eq, Out.content]
    | str t h' =>
      rw [(C32_eq s t h h').1]
      simp [Out.content, funext_iff]

/-- The outcome as a string outcome: a number counts as its own string. -/
def Out.lift : Out → StrVal
  | .num n => .fromConst n
  | .str s => s

theorem BuiltOut.lift {a : Out} (h : BuiltOut a) : Built a.lift := by
  cases h with
  | num n => exact .const n
  | str s h => exact h

theorem coef_fromConst (n : ℤ) (k : PyStr) :
    (StrVal.fromConst n).coef k = if k = StrVal.constKey then some n else none := (C32_add_number (.fromConst 0) n k).2.2

/-- What addition of outcomes does to their contents. -/
theorem coef_lift_add {a b : Out} (ha : BuiltOut a) (hb : BuiltOut b) (k : PyStr) :
    (a.add b).lift.coef k = coefAdd (a.lift.coef k) (b.lift.coef k) := by
  cases ha with
  | num m =>
    cases hb with
    | num n =>
      simp only [Out.add, Out.lift, coef_fromConst]
      split <;> simp [coefAdd]
    | str t h =>
      simp only [Out.add, Out.lift]
      rw [C32_add_coef _ _ (.const m), coefAdd_comm]
  | str s h =>
    cases hb with
    | num n =>
      simp only [Out.add, Out.lift]
      rw [C32_add_coef _ _ (.const n)]
    | str t h' => exact C32_add_coef _ _ h' k

/-- Whether the outcome is a number. -/
def Out.isNum : Out → Bool
  | .num _ => true
  | .str _ => false

theorem isNum_add (a b : Out) : (a.add b).isNum = (a.isNum && b.isNum) := by
  cases a <;> cases b <;> rfl

theorem eq_iff_lift {a b : Out} (ha : BuiltOut a) (hb : BuiltOut b) :
    Out.eq a b = true ↔ a.isNum = b.isNum ∧ ∀ k, a.lift.coef k = b.lift.coef k := by
  cases ha with
  | num m =>
    cases hb with
    | num n =>
      simp only [Out.eq, decide_eq_true_eq, Out.isNum, Out.lift, coef_fromConst, true_and]
      constructor
      · rintro rfl k; rfl
      · intro h
        have := h StrVal.constKey
        simpa using this
    | str t h => simp [Out.eq, Out.isNum]
  | str s h =>
    cases hb with
    | num n => simp [Out.eq, Out.isNum]
    | str t h' => simpa [Out.isNum, Out.lift] using (C32_eq s t h h').1

/-- C32, addition is commutative, associative and respects `==`, also between string outcomes and
numbers. -/
theorem C32_add (a b c d : Out) (ha : BuiltOut a) (hb : BuiltOut b) (hc : BuiltOut c) (hd : BuiltOut d) :
    Out.eq (a.add b) (b.add a) = true ∧
    Out.eq ((a.add b).add c) (a.add (b.add c)) = true ∧
    (Out.eq a c = true → Out.eq b d = true → Out.eq (a.add b) (c.add d) = true) := by
  refine ⟨?_, ?_, ?_⟩
  · rw [eq_iff_lift (ha.add hb) (hb.add ha)]
    refine ⟨by rw [isNum_add, isNum_add, Bool.and_comm], fun k => ?_⟩
    rw [coef_lift_add ha hb, coef_lift_add hb ha, coefAdd_comm]
  · rw [eq_iff_lift ((ha.add hb).add hc) (ha.add (hb.add hc))]
    refine ⟨by simp only [isNum_add, Bool.and_assoc], fun k => ?_⟩
    rw [coef_lift_add (ha.add hb) hc, coef_lift_add ha hb, coef_lift_add ha (hb.add hc), coef_lift_add hb hc,
      coefAdd_assoc]
  · rw [eq_iff_lift ha hc, eq_iff_lift hb hd, eq_iff_lift (ha.add hb) (hc.add hd)]
    rintro ⟨h1, h2⟩ ⟨h3, h4⟩
    refine ⟨by rw [isNum_add, isNum_add, h1, h3], fun k => ?_⟩
    rw [coef_lift_add ha hb, coef_lift_add hc hd, h2, h4]

/-- The outcomes `'a'`, `'b'`, and their sums in both orders. -/
def strA : StrVal := .fromStr "a".toList
def strB : StrVal := .fromStr "b".toList

theorem built_ab : BuiltOut (.str (strA.add strB)) := .str _ (.add _ _ (.str _) (.str _))
theorem built_ba : BuiltOut (.str (strB.add strA)) := .str _ (.add _ _ (.str _) (.str _))

example : Out.cmp .lt (.num 7) (.str strA) = true ∧ Out.cmp .lt (.str strA) (.str (strA.add strB)) = true ∧
    Out.cmp .lt (.str (strA.add strB)) (.str (strA.add strA)) = true ∧
    Out.eq (.str (strA.add strB)) (.str (strB.add strA)) = true ∧
    ((strA.add strB).add strA).coef "a".toList = some 2 := by decide +kernel

/-- C32: adding the number 0 to a string outcome gives a different outcome. -/
theorem C32_zero_not_neutral : Out.eq (Out.add (.str strA) (.num 0)) (.str strA) = false := by decide +kernel

theorem mkRV_mem {st : Settings} {vals : List Out} {probs : List ℤ} {r : RV Out}
    (h : Out.mkRV st vals probs (some false) = .ok r) :
    r.vals = [.num 0] ∨ ∀ a ∈ r.vals, a ∈ vals := by
  unfold Out.mkRV at h
  by_cases hl : vals.length = probs.length
  · rw [if_neg (not_not.2 hl)] at h
    have h' : (do
        let d ← Out.sortAndGroup vals probs st.rvIgnoreZeroProbs true
        if d.1.length = 0 then return { vals := [.num 0], probs := [1] }
        else return { vals := d.1, probs := d.2 } : Except Err (RV Out)) = .ok r := h
    unfold Out.sortAndGroup at h'
    split at h'
    · simp only [bind, Except.bind] at h'
      split at h'
      · cases h'; exact .inl rfl
      · cases h'
        refine .inr fun a ha => ?_
        have hn : ∀ (nz : List (Out × ℕ)) (b : Bool), (RV.normalized nz b).1 = nz.map (·.1) := by
          intro nz b
          unfold RV.normalized
          cases b
          · rfl
          · simp only [if_true]
            split <;> rfl
        simp only [hn, List.mem_map] at ha
        obtain ⟨x, hx, rfl⟩ := ha
        obtain ⟨y, hy, hxy⟩ := Out.mem_newZipped _ _ hx
        have : y ∈ vals.zip (probs.map Int.toNat) := (List.perm_insertionSort _ _).subset hy
        rw [hxy]
        exact (List.of_mem_zip this).1
    · cases h'
  · rw [if_pos hl] at h
    cases h

/-- C32, grouping: a die built from string outcomes and numbers has strictly increasing outcomes, each
of which is one of the given ones (or 0, for no outcomes), and gives every outcome `x` the probability
that the given weights give to the outcomes equal to `x`. -/
theorem C32_dice (st : Settings) (vals : List Out) (probs : List ℤ) (r : RV Out) (hv : ∀ a ∈ vals, BuiltOut a)
    (h : Out.mkRV st vals probs (some false) = .ok r) (hm : ∃ x ∈ probs, 0 < x) :
    r.vals.Pairwise (fun a b => Out.cmp .lt a b = true) ∧
    (∀ a ∈ r.vals, a ∈ vals) ∧ r.vals.length = r.probs.length ∧
    ∀ x, BuiltOut x → Pr r.pairs (fun a => Out.eq a x = true) =
      Pr (vals.zip (probs.map Int.toNat)) (fun a => Out.eq a x = true) := by
  have hk : RV.mk' st (vals.map Out.canon) probs (some false) = .ok (Out.canonRV r) := by
    rw [← Out.mkRV_canon st vals probs (some false) fun a ha => (hv a ha).wf, h]; rfl
  have hc := RV.mk'_canonical hk
  have hl : vals.length = probs.length := by simpa using (RV.mk'_ok hk).1
  have ht : TruncOf st (some false) (vals.map Out.canon) (vals.map Out.canon) := .off (.inl rfl)
  have hpos : ∃ x ∈ (vals.map Out.canon).zip probs, 0 < x.2 := by
    obtain ⟨p, hp, hp0⟩ := hm
    obtain ⟨i, hi, rfl⟩ := List.mem_iff_getElem.1 hp
    refine ⟨((vals.map Out.canon)[i]'(by simpa [hl] using hi), probs[i]), ?_, hp0⟩
    rw [List.mem_iff_getElem]
    exact ⟨i, by simp [hl]; exact hi, by simp⟩
  have hsub : ∀ c ∈ (Out.canonRV r).vals, c ∈ vals.map Out.canon := by
    obtain ⟨h1, h2, _, _⟩ := C02_constructor_support st _ _ probs (some false) _ hk ht
    have hne : vals.map Out.canon ≠ [] := by
      obtain ⟨x, hx, _⟩ := hpos
      exact List.ne_nil_of_mem (List.of_mem_zip hx).1
    cases hi : st.rvIgnoreZeroProbs
    · exact fun c hc => (h1 hi hne c).1 hc
    · intro c hc
      have hw := (h2 hi hpos c).1 hc
      rw [weightOf] at hw
      by_contra hn
      rw [List.filter_eq_nil_iff.2] at hw
      · simp at hw
      · rintro ⟨a, b⟩ hab
        have hmem := (List.of_mem_zip hab).1
        simp only [decide_eq_true_eq]
        rintro rfl
        exact hn hmem
  have hmem : ∀ a ∈ r.vals, a ∈ vals := by
    rcases mkRV_mem h with h0 | h0
    · intro a ha
      have := hsub a.canon (List.mem_map_of_mem ha)
      obtain ⟨b, hb, hbc⟩ := List.mem_map.1 this
      rw [h0, List.mem_singleton] at ha
      subst ha
      cases b with
      | num n => simp [Out.canon] at hbc; subst hbc; exact hb
      | str t => simp [Out.canon] at hbc
    · exact h0
  refine ⟨?_, hmem, by simpa [Out.canonRV] using hc.len, ?_⟩
  · have := hc.sorted
    simp only [Out.canonRV, List.pairwise_map] at this
    refine this.imp fun {a b} hab => ?_
    rw [Out.cmp_eq]
    simpa [CmpOp.run] using hab
  · intro x hx
    have hE := C02_constructor_preserves_law st _ _ probs (some false) _ hk ht hpos
      fun c => if c = x.canon then 1 else 0
    have hp : ∀ (vs : List Out) (ps : List ℕ), (vs.map Out.canon).zip ps = (vs.zip ps).map fun y => (Out.canon y.1, y.2) :=
      fun vs ps => by rw [List.zip_map_left]; rfl
    have key : ∀ (vs : List Out) (ps : List ℕ), (∀ a ∈ vs, BuiltOut a) →
        Ex ((vs.map Out.canon).zip ps) (fun c => if c = x.canon then 1 else 0) =
          Pr (vs.zip ps) (fun a => Out.eq a x = true) := by
      intro vs ps hvs
      rw [hp, Pr, Ex, Ex, mass, mass, wsum_map, wsum_map]
      congr 1
      refine wsum_congr fun y hy _ => ?_
      have := Out.eq_iff (hvs _ (List.of_mem_zip hy).1).wf hx.wf
      simp only [this]
    rw [← key _ _ hv, ← hE, RV.pairs, ← key _ _ fun a ha => hv a (hmem a ha)]
    rfl

example : Out.mkRV {} [.str (strB.add strA), .num 3, .str (strA.add strB), .str strA, .num 3] [1, 2, 1, 1, 1] (some false) =
    .ok { vals := [.num 3, .str strA, .str (strB.add strA)], probs := [3, 1, 2] } := by decide +kernel

/-! ## C33: hashes -/

/-- C33 as stated fails: `'a' + 'b'` and `'b' + 'a'` are equal, but what is hashed differs (the keys
in insertion order). -/
theorem C33_hash_counterexample :
    Out.eq (.str (strA.add strB)) (.str (strB.add strA)) = true ∧
      (strA.add strB).hashInput ≠ (strB.add strA).hashInput := by decide +kernel

/-- C33: the consequence for `filter`.  With any hash function that separates the two tuples, filtering
the die that is always `'a' + 'b'` by the equal outcome `'b' + 'a'` removes nothing. -/
theorem C33_filter_counterexample {H : Type} [DecidableEq H] (h : Out → H)
    (hh : h (.str (strA.add strB)) ≠ h (.str (strB.add strA))) :
    Out.filterRV h {} { vals := [.str (strA.add strB)], probs := [1] } [.str (strB.add strA)] =
      .ok { vals := [.str (strA.add strB)], probs := [1] } := by
  have : Out.inSet h [.str (strB.add strA)] (.str (strA.add strB)) = false := by
    simp [Out.inSet, hh.symm]
  unfold Out.filterRV
  simp only [RV.pairs, List.zip_cons_cons, List.zip_nil_right, List.filter_cons, this, List.filter_nil]
  decide +kernel

/-- C33 partial.  Equal string outcomes whose strings were first added in the same order are hashed
alike; in particular this holds for outcomes of at most one string, and the sorted keys always agree. -/
theorem C33_hash_partial (a b : StrVal) (ha : Built a) (hb : Built b)
    (h : Out.eq (.str a) (.str b) = true) :
    a.keys = b.keys ∧ (a.data.map (·.1)).Perm (b.data.map (·.1)) ∧
    (a.data.map (·.1) = b.data.map (·.1) → a.hashInput = b.hashInput) ∧
    (a.data.length ≤ 1 → a.hashInput = b.hashInput) := by
  have hk : a.keys = b.keys := by
    have : a.eq b = true := h
    simp only [StrVal.eq, Bool.and_eq_true, beq_iff_eq] at this
    exact this.1
  have hp : (a.data.map (·.1)).Perm (b.data.map (·.1)) := ha.wf.perm.symm.trans (hk ▸ hb.wf.perm)
  refine ⟨hk, hp, fun e => by simp [StrVal.hashInput, hk, e], fun hl => ?_⟩
  have e : a.data.map (·.1) = b.data.map (·.1) := by
    cases hd : a.data.map (·.1) with
    | nil => rw [hd] at hp; rw [hp.symm.eq_nil]
    | cons x xs =>
      have : xs = [] := by
        have hlen := congrArg List.length hd
        simp at hlen
        exact List.eq_nil_of_length_eq_zero (by omega)
      subst this
      rw [hd] at hp
      exact (List.perm_singleton.1 hp.symm).symm
  simp [StrVal.hashInput, hk, e]

/-- C33 partial.  Filtering works on outcomes with the same hash input: if every element of the set
that equals an outcome was built in the same order, `in` agrees with `==`. -/
theorem C33_membership_partial {H : Type} [DecidableEq H] (g : ℤ ⊕ (List PyStr × List PyStr) → H) (l : List Out) (x : Out)
    (hl : ∀ y ∈ l, Out.eq y x = true → y.hashInput = x.hashInput) :
    Out.inSet (fun o => g o.hashInput) l x = true ↔ ∃ y ∈ l, Out.eq y x = true := by
  simp only [Out.inSet, List.any_eq_true, Bool.and_eq_true, decide_eq_true_eq]
  constructor
  · rintro ⟨y, hy, _, h⟩; exact ⟨y, hy, h⟩
  · rintro ⟨y, hy, h⟩; exact ⟨y, hy, by rw [hl y hy h], h⟩

example : Out.inSet Out.hashInput [.num 2, .str (strA.add strB)] (.str (strA.add strB)) = true := by decide +kernel

end PythonDice
