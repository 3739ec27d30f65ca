import Verif.Model.StringSeq
import Verif.Props.StringDice

/-!
# C92: sequences of texts
-/

namespace PythonDice

open Spec Spec.Symbol

/-! ## What a sequence is made of -/

/-- Is it an iterable? -/
def TextSrc.nested : TextSrc → Bool
  | .iter _ => true
  | _ => false

/-- What an argument that is no die and no iterable adds to a sequence: a number, or a word that occurs once. -/
def TextSrc.own : TextSrc → List Content
  | .num n => [.inl n]
  | .text s => [.inr fun k => if k = s then some 1 else none]
  | .val v => [.inr v.coef]
  | _ => []

/-- What a die adds to a sequence: its outcomes. -/
def TextSrc.faces : TextSrc → List Content
  | .rv r => r.vals.map Out.content
  | _ => []

theorem flattenTexts_append (a b : List TextSrc) : flattenTexts (a ++ b) = flattenTexts a ++ flattenTexts b := by
  induction a with
  | nil => rfl
  | cons x a ih => rw [List.cons_append, flattenTexts, flattenTexts, ih, List.append_assoc]

theorem flattenTexts_plain {l : List TextSrc} (h : ∀ x ∈ l, x.nested = false) : flattenTexts l = l := by
  induction l with
  | nil => rfl
  | cons x l ih =>
    rw [flattenTexts, ih fun y hy => h y (List.mem_cons_of_mem _ hy)]
    match x, h x List.mem_cons_self with
    | .num _, _ | .text _, _ | .val _, _ | .rv _, _ | .blank _, _ => rfl

theorem content_fromStr (s : PyStr) : (Out.str (StrVal.fromStr s)).content = .inr fun k => if k = s then some 1 else none := by
  refine congrArg Sum.inr (funext fun k => ?_)
  show List.lookup k [(s, (1 : ℤ))] = _
  by_cases h : k = s
  · rw [if_pos h, h, StrVal.lookup_same]
  · rw [if_neg h, StrVal.lookup_other h]; rfl

theorem elseVals_own (x : TextSrc) : (x.elseVals.map toOut).map Out.content = x.own := by
  match x with
  | .text s => exact congrArg (fun c => [c]) (content_fromStr s)
  | .num _ | .val _ | .rv _ | .blank _ | .iter _ => rfl

theorem rvVals_faces (x : TextSrc) : (x.rvVals.map toOut).map Out.content = x.faces := by
  match x with
  | .rv r =>
    show ((r.vals.map Sum.inl).map toOut).map Out.content = _
    rw [List.map_map, List.map_map]
    rfl
  | .num _ | .val _ | .text _ | .blank _ | .iter _ => rfl

theorem toNum_content {l : List Entry} (h : l.any isText = false) : (l.flatMap toNum).map Sum.inl = (l.map toOut).map Out.content := by
  induction l with
  | nil => rfl
  | cons x l ih =>
    rw [List.any_cons, Bool.or_eq_false_iff] at h
    match x, h.1 with
    | .inl (.num n), _ =>
      rw [List.flatMap_cons, List.map_append, ih h.2]
      rfl

theorem isText_content {l : List Entry} (h : l.any isText = true) : ∃ c ∈ (l.map toOut).map Out.content, isNumber c = false := by
  obtain ⟨x, hx, ht⟩ := List.any_eq_true.1 h
  refine ⟨_, List.mem_map_of_mem (List.mem_map_of_mem hx), ?_⟩
  match x, ht with
  | .inl (.str _), _ | .inr _, _ => rfl

/-- C92, nesting: iterables among the arguments of `get_seq` are the same as their elements. -/
theorem C92_nested (a b c : List TextSrc) : getTextSeq (a ++ .iter b :: c) = getTextSeq (a ++ b ++ c) := by
  have h : flattenTexts (a ++ .iter b :: c) = flattenTexts (a ++ b ++ c) := by
    rw [flattenTexts_append, flattenTexts_append, flattenTexts_append, flattenTexts, flattenText, List.append_assoc]
  rw [getTextSeq, getTextSeq, h]

/-- C92, entries: the numbers and texts in their order, then the outcomes of the dice; it is a sequence of texts exactly if there is a text among them. -/
theorem C92_entries (l : List TextSrc) (h : ∀ x ∈ l, x.nested = false) :
    match getTextSeq l with
    | .inl s => s.map Sum.inl = l.flatMap TextSrc.own ++ l.flatMap TextSrc.faces
    | .inr s => s.iter.map Out.content = l.flatMap TextSrc.own ++ l.flatMap TextSrc.faces ∧ s.len = (l.flatMap TextSrc.own ++ l.flatMap TextSrc.faces).length ∧
        ∃ c ∈ l.flatMap TextSrc.own ++ l.flatMap TextSrc.faces, isNumber c = false := by
  have hc : ((l.flatMap TextSrc.elseVals ++ l.flatMap TextSrc.rvVals).map toOut).map Out.content =
      l.flatMap TextSrc.own ++ l.flatMap TextSrc.faces := by
    rw [List.map_append, List.map_append, List.map_flatMap, List.map_flatMap, List.map_flatMap, List.map_flatMap]
    congr 1
    · exact List.flatMap_congr fun x _ => elseVals_own x
    · exact List.flatMap_congr fun x _ => rvVals_faces x
  rw [getTextSeq, flattenTexts_plain h]
  cases ht : (l.flatMap TextSrc.elseVals ++ l.flatMap TextSrc.rvVals).any isText
  · rw [if_neg Bool.false_ne_true, ← hc]
    exact toNum_content ht
  · rw [if_pos rfl, ← hc]
    exact ⟨rfl, by rw [StrSeq.len, mkStrSeq, List.length_map, List.length_map, List.length_map], isText_content ht⟩

/-! ## Comparing -/

/-- Comparing an entry with a number: texts are greater than all numbers. -/
def compares (op : BinOp) (c : Content) (n : ℤ) : Prop := match op with
  | .eq => c = .inl n
  | .ne => c ≠ .inl n
  | .lt => ∃ m, c = .inl m ∧ m < n
  | .le => ∃ m, c = .inl m ∧ m ≤ n
  | .gt => ¬ ∃ m, c = .inl m ∧ m ≤ n
  | .ge => ¬ ∃ m, c = .inl m ∧ m < n
  | _ => False

theorem testOut_num (op : BinOp) (h : op.isCmp = true) (x : Out) (n : ℤ) : op.testOut (some x) (some (.num n)) = true ↔ compares op x.content n := by
  match x with
  | .num m =>
    cases op <;> first
      | exact absurd h (by decide)
      | simp [BinOp.testOut, BinOp.toCmp, compares, Out.cmp, Out.eq, Out.content, CmpOp.run]
  | .str s =>
    cases op <;> first
      | exact absurd h (by decide)
      | simp [BinOp.testOut, BinOp.toCmp, compares, Out.cmp, Out.eq, Out.content, CmpOp.run]

open Classical in
/-- C92, counting: comparing a sequence of texts with a number counts the entries that satisfy the comparison. -/
theorem C92_count (op : BinOp) (h : op.isCmp = true) (s : StrSeq) (n : ℤ) :
    s.binopL op (.out (.num n)) = .ok (.out (.num ((s.iter.map Out.content).countP fun c => decide (compares op c n) : ℕ))) := by
  rw [StrSeq.binopL, if_pos h]
  show Except.ok (TextObj.out (.num (outsCount op s.elems n))) = _
  rw [outsCount, ← List.countP_eq_length_filter, StrSeq.iter, List.countP_map]
  congr 4
  apply List.countP_congr
  intro x _
  rw [testOut_num op h, Function.comp_apply, decide_eq_true_eq]

/-- The comparison seen from the other side. -/
def seenFromRight : BinOp → BinOp
  | .lt => .gt
  | .gt => .lt
  | .le => .ge
  | .ge => .le
  | op => op

open Classical in
/-- C92, counting, with the number on the left. -/
theorem C92_count_left (op : BinOp) (h : op.isCmp = true) (s : StrSeq) (n : ℤ) :
    StrSeq.binopR op (.out (.num n)) s = .ok (.out (.num ((s.iter.map Out.content).countP fun c => decide (compares (seenFromRight op) c n) : ℕ))) := by
  have h1 : (seenFromRight op).isCmp = true := by cases op <;> first | rfl | exact absurd h (by decide)
  rw [← C92_count _ h1]
  cases op <;> rfl

theorem outsAll_iff (op : BinOp) (s t : List Out) : outsAll op s t = true ↔
    (∀ i (h1 : i < s.length) (h2 : i < t.length), op.testOut (some s[i]) (some t[i]) = true) ∧
      (t.length < s.length → ∀ x ∈ s, op.testOut (some x) none = true) ∧
      (s.length < t.length → ∀ x ∈ t, op.testOut none (some x) = true) := by
  have hl (x y : Out) : op.testOut (some x) none = op.testOut (some y) none := rfl
  have hr (x y : Out) : op.testOut none (some x) = op.testOut none (some y) := rfl
  induction s generalizing t with
  | nil =>
    rw [outsAll, zipLongestOut, List.all_map, List.all_eq_true]
    constructor
    · intro h
      exact ⟨fun i h1 => absurd h1 (Nat.not_lt_zero i), fun h1 => absurd h1 (Nat.not_lt_zero _), fun _ x hx => h x hx⟩
    · rintro ⟨-, -, h⟩ x hx
      exact h (List.length_pos_of_mem hx) x hx
  | cons x s ih =>
    match t with
    | [] =>
      have := ih []
      rw [outsAll] at this ⊢
      rw [zipLongestOut, List.all_cons, Bool.and_eq_true]
      refine (and_congr Iff.rfl this).trans ?_
      constructor
      · rintro ⟨h1, -⟩
        exact ⟨fun i _ h2 => absurd h2 (Nat.not_lt_zero i), fun _ y _ => (hl y x).trans h1, fun h2 => absurd h2 (Nat.not_lt_zero _)⟩
      · rintro ⟨-, h, -⟩
        have h1 := h (Nat.succ_pos _) x List.mem_cons_self
        exact ⟨h1, fun i _ h2 => absurd h2 (Nat.not_lt_zero i), fun _ y _ => (hl y x).trans h1, fun h2 => absurd h2 (Nat.not_lt_zero _)⟩
    | y :: t =>
      have := ih t
      rw [outsAll] at this ⊢
      rw [zipLongestOut, List.all_cons, Bool.and_eq_true]
      refine (and_congr Iff.rfl this).trans ?_
      constructor
      · rintro ⟨h1, h2, h3, h4⟩
        refine ⟨?_, fun h z _ => ?_, fun h z _ => ?_⟩
        · intro i hi hi'
          match i with
          | 0 => exact h1
          | i + 1 => exact h2 i (Nat.lt_of_succ_lt_succ hi) (Nat.lt_of_succ_lt_succ hi')
        · have h := Nat.lt_of_succ_lt_succ h
          match s, h, h3 h with
          | w :: s, _, h5 => exact (hl z w).trans (h5 w List.mem_cons_self)
        · have h := Nat.lt_of_succ_lt_succ h
          match t, h, h4 h with
          | w :: t, _, h5 => exact (hr z w).trans (h5 w List.mem_cons_self)
      · rintro ⟨h1, h2, h3⟩
        exact ⟨h1 0 (Nat.succ_pos _) (Nat.succ_pos _), fun i hi hi' => h1 (i + 1) (Nat.succ_lt_succ hi) (Nat.succ_lt_succ hi'),
          fun h z hz => h2 (Nat.succ_lt_succ h) z (List.mem_cons_of_mem _ hz), fun h z hz => h3 (Nat.succ_lt_succ h) z (List.mem_cons_of_mem _ hz)⟩

theorem outsAll_eq {s t : List Out} (hs : ∀ x ∈ s, BuiltOut x) (ht : ∀ x ∈ t, BuiltOut x) :
    outsAll .eq s t = true ↔ s.map Out.content = t.map Out.content := by
  rw [outsAll_iff]
  constructor
  · rintro ⟨h1, h2, h3⟩
    have hlen : s.length = t.length := by
      rcases Nat.lt_trichotomy s.length t.length with h | h | h
      · match t, h with
        | y :: t, h => exact absurd (h3 h y List.mem_cons_self) (by rw [show BinOp.eq.testOut none (some y) = false from rfl]; decide)
      · exact h
      · match s, h with
        | y :: s, h => exact absurd (h2 h y List.mem_cons_self) (by rw [show BinOp.eq.testOut (some y) none = false from rfl]; decide)
    apply List.ext_getElem (by rw [List.length_map, List.length_map, hlen])
    intro i hi hi'
    rw [List.length_map] at hi hi'
    rw [List.getElem_map, List.getElem_map]
    exact (eq_iff_content (hs _ (List.getElem_mem hi)) (ht _ (List.getElem_mem hi'))).1 (h1 i hi hi')
  · intro h
    have hlen : s.length = t.length := by simpa using congrArg List.length h
    refine ⟨fun i hi hi' => ?_, fun h' => absurd h' (by omega), fun h' => absurd h' (by omega)⟩
    refine (eq_iff_content (hs _ (List.getElem_mem hi)) (ht _ (List.getElem_mem hi'))).2 ?_
    have h1 : (s.map Out.content)[i]'(by rw [List.length_map]; exact hi) = (t.map Out.content)[i]'(by rw [List.length_map]; exact hi') := by
      simp only [h]
    rwa [List.getElem_map, List.getElem_map] at h1

open Classical in
/-- C92, equality: two sequences of texts are equal exactly if they have the same entries in the same order; `!=` is the opposite. -/
theorem C92_same (s t : StrSeq) (hs : ∀ x ∈ s.iter, BuiltOut x) (ht : ∀ x ∈ t.iter, BuiltOut x) :
    s.binopL .eq (.strs t) = .ok (.out (.num (if s.iter.map Out.content = t.iter.map Out.content then 1 else 0))) ∧
      s.binopL .ne (.strs t) = .ok (.out (.num (if s.iter.map Out.content = t.iter.map Out.content then 0 else 1))) := by
  have h := outsAll_eq hs ht
  have e1 : s.binopL .eq (.strs t) = .ok (.out (.num (ofBool (outsAll .eq s.elems t.elems)))) := rfl
  have e2 : s.binopL .ne (.strs t) = .ok (.out (.num (ofBool (!outsAll .eq s.elems t.elems)))) := rfl
  rw [e1, e2]
  by_cases hc : s.iter.map Out.content = t.iter.map Out.content
  · rw [show outsAll .eq s.elems t.elems = true from h.2 hc, if_pos hc, if_pos hc]
    exact ⟨rfl, rfl⟩
  · rw [show outsAll .eq s.elems t.elems = false from Bool.eq_false_iff.2 fun h1 => hc (h.1 h1), if_neg hc, if_neg hc]
    exact ⟨rfl, rfl⟩

open Classical in
/-- C92, equality with a sequence of numbers, on either side. -/
theorem C92_same_numbers (s : StrSeq) (t : List ℤ) (hs : ∀ x ∈ s.iter, BuiltOut x) :
    s.binopL .eq (.seq t) = .ok (.out (.num (if s.iter.map Out.content = t.map Sum.inl then 1 else 0))) ∧
      StrSeq.binopR .eq (.seq t) s = .ok (.out (.num (if s.iter.map Out.content = t.map Sum.inl then 1 else 0))) := by
  have h := (C92_same s ⟨t.map Out.num, none⟩ hs (by
    intro x hx
    obtain ⟨n, -, rfl⟩ := List.mem_map.1 hx
    exact .num n)).1
  have e : (StrSeq.iter ⟨t.map Out.num, none⟩).map Out.content = t.map Sum.inl := by
    rw [StrSeq.iter, List.map_map]; rfl
  rw [e] at h
  exact ⟨h, h⟩

open Classical in
/-- C92, order: one sequence is less (or not greater) than another if it is not longer and each entry is less (not greater) than the entry at the same
place; greater (or not less) is the mirror image. -/
theorem C92_order (o : CmpOp) (s t : StrSeq) :
    s.binopL (match o with | .lt => .lt | .le => .le | .gt => .gt | .ge => .ge) (.strs t) = .ok (.out (.num (
      if (match o with | .lt => s.len ≤ t.len | .le => s.len ≤ t.len | .gt => t.len ≤ s.len | .ge => t.len ≤ s.len) ∧
        ∀ i (h1 : i < s.len) (h2 : i < t.len), Out.cmp o (s.iter[i]'h1) (t.iter[i]'h2) = true then 1 else 0))) := by
  have key (op : BinOp) (hop : op.toCmp = some o) (hn : op ≠ .ne) (hc : op.isCmp = true) :
      s.binopL op (.strs t) = .ok (.out (.num (ofBool (outsAll op s.elems t.elems)))) := by
    cases op <;> first
      | exact absurd rfl hn
      | exact absurd hc (by decide)
      | rfl
  have fin (op : BinOp) (P : Prop) {_ : Decidable P} (hP : outsAll op s.elems t.elems = true ↔ P) :
      Except.ok (ε := Err) (TextObj.out (.num (ofBool (outsAll op s.elems t.elems)))) = .ok (.out (.num (if P then 1 else 0))) := by
    by_cases hp : P
    · rw [if_pos hp, hP.2 hp]; rfl
    · rw [if_neg hp, Bool.eq_false_iff.2 fun h1 => hp (hP.1 h1)]; rfl
  have up (op : BinOp) (hop : op.toCmp = some o) (h1 : o.run (1 : ℤ) 0 = false) (h2 : o.run (0 : ℤ) 1 = true) :
      outsAll op s.elems t.elems = true ↔ s.len ≤ t.len ∧
        ∀ i (h1 : i < s.len) (h2 : i < t.len), Out.cmp o (s.iter[i]'h1) (t.iter[i]'h2) = true := by
    rw [outsAll_iff]
    simp only [BinOp.testOut, hop, h1, h2, StrSeq.len, StrSeq.iter]
    constructor
    · rintro ⟨h3, h4, -⟩
      refine ⟨?_, h3⟩
      by_contra hlt
      have hlt := Nat.lt_of_not_le hlt
      match he : s.elems, hlt with
      | x :: l, hlt =>
        rw [he] at h4
        exact absurd (h4 hlt x List.mem_cons_self) Bool.false_ne_true
    · rintro ⟨h3, h4⟩
      exact ⟨h4, fun h => absurd h (Nat.not_lt.2 h3), fun _ _ _ => trivial⟩
  have down (op : BinOp) (hop : op.toCmp = some o) (h1 : o.run (1 : ℤ) 0 = true) (h2 : o.run (0 : ℤ) 1 = false) :
      outsAll op s.elems t.elems = true ↔ t.len ≤ s.len ∧
        ∀ i (h1 : i < s.len) (h2 : i < t.len), Out.cmp o (s.iter[i]'h1) (t.iter[i]'h2) = true := by
    rw [outsAll_iff]
    simp only [BinOp.testOut, hop, h1, h2, StrSeq.len, StrSeq.iter]
    constructor
    · rintro ⟨h3, -, h4⟩
      refine ⟨?_, h3⟩
      by_contra hlt
      have hlt := Nat.lt_of_not_le hlt
      match he : t.elems, hlt with
      | x :: l, hlt =>
        rw [he] at h4
        exact absurd (h4 hlt x List.mem_cons_self) Bool.false_ne_true
    · rintro ⟨h3, h4⟩
      exact ⟨h4, fun _ _ _ => trivial, fun h => absurd h (Nat.not_lt.2 h3)⟩
  cases o with
  | lt =>
    refine (key .lt rfl (by decide) rfl).trans (fin .lt _ ?_)
    exact up .lt rfl (by decide) (by decide)
  | le =>
    refine (key .le rfl (by decide) rfl).trans (fin .le _ ?_)
    exact up .le rfl (by decide) (by decide)
  | gt =>
    refine (key .gt rfl (by decide) rfl).trans (fin .gt _ ?_)
    exact down .gt rfl (by decide) (by decide)
  | ge =>
    refine (key .ge rfl (by decide) rfl).trans (fin .ge _ ?_)
    exact down .ge rfl (by decide) (by decide)

theorem cmp_num_left (o : CmpOp) (x : Out) (n : ℤ) : Out.cmp o.reflect x (.num n) = Out.cmp o (.num n) x := by
  cases x <;> cases o <;> rfl

open Classical in
/-- C92, order with a sequence of numbers on either side: as if the numbers were the entries of a sequence of texts. -/
theorem C92_order_numbers (o : CmpOp) (s : StrSeq) (t : List ℤ) :
    s.binopL (match o with | .lt => .lt | .le => .le | .gt => .gt | .ge => .ge) (.seq t) = .ok (.out (.num (
      if (match o with | .lt => s.len ≤ t.length | .le => s.len ≤ t.length | .gt => t.length ≤ s.len | .ge => t.length ≤ s.len) ∧
        ∀ i (h1 : i < s.len) (h2 : i < t.length), Out.cmp o (s.iter[i]'h1) (.num t[i]) = true then 1 else 0))) ∧
    StrSeq.binopR (match o with | .lt => .lt | .le => .le | .gt => .gt | .ge => .ge) (.seq t) s = .ok (.out (.num (
      if (match o with | .lt => t.length ≤ s.len | .le => t.length ≤ s.len | .gt => s.len ≤ t.length | .ge => s.len ≤ t.length) ∧
        ∀ i (h1 : i < t.length) (h2 : i < s.len), Out.cmp o (.num t[i]) (s.iter[i]'h2) = true then 1 else 0))) := by
  have h (o : CmpOp) := C92_order o s ⟨t.map Out.num, none⟩
  have hl : StrSeq.len ⟨t.map Out.num, none⟩ = t.length := List.length_map _
  have all (o : CmpOp) : (∀ i (h1 : i < s.len) (h2 : i < StrSeq.len ⟨t.map Out.num, none⟩),
      Out.cmp o (s.iter[i]'h1) ((StrSeq.iter ⟨t.map Out.num, none⟩)[i]'h2) = true) ↔
      ∀ i (h1 : i < s.len) (h2 : i < t.length), Out.cmp o (s.iter[i]'h1) (.num t[i]) = true := by
    have e (i : ℕ) (h2 : i < StrSeq.len ⟨t.map Out.num, none⟩) (h3 : i < t.length) :
        (StrSeq.iter ⟨t.map Out.num, none⟩)[i]'h2 = .num t[i] := List.getElem_map _
    constructor
    · intro ha i h1 h2
      have := ha i h1 (by rw [hl]; exact h2)
      rwa [e i _ h2] at this
    · intro ha i h1 h2
      rw [e i h2 (by rw [← hl]; exact h2)]
      exact ha i h1 _
  have all' (o : CmpOp) : (∀ i (h1 : i < s.len) (h2 : i < t.length), Out.cmp o.reflect (s.iter[i]'h1) (.num t[i]) = true) ↔
      ∀ i (h1 : i < t.length) (h2 : i < s.len), Out.cmp o (.num t[i]) (s.iter[i]'h2) = true := by
    constructor
    · intro ha i h1 h2
      rw [← cmp_num_left]
      exact ha i h2 h1
    · intro ha i h1 h2
      rw [cmp_num_left]
      exact ha i h2 h1
  constructor
  · refine Eq.trans ?_ ((h o).trans ?_)
    · cases o <;> rfl
    · congr 4
      rw [all o]
      cases o <;> simp only [hl]
  · refine Eq.trans (b := s.binopL (match o.reflect with | .lt => .lt | .le => .le | .gt => .gt | .ge => .ge) (.strs ⟨t.map Out.num, none⟩)) ?_
      ((h o.reflect).trans ?_)
    · cases o <;> rfl
    · congr 4
      rw [all o.reflect, all' o]
      cases o <;> simp only [CmpOp.reflect, hl]

/-- `{1, 2} < {3, "a"}` holds and `{3, "a"} < {1, 2}` does not. -/
example : StrSeq.binopR .lt (.seq [1, 2]) ⟨[.num 3, .str (StrVal.fromStr "a".toList)], none⟩ = .ok (.out (.num 1)) ∧
    StrSeq.binopL .lt ⟨[.num 3, .str (StrVal.fromStr "a".toList)], none⟩ (.seq [1, 2]) = .ok (.out (.num 0)) := ⟨rfl, rfl⟩

/-! ## Selecting and calculating -/

/-- C92 is false of selections: no entry of a sequence of texts made by `get_seq` can be selected; `s[k]` and `k @ s` raise AttributeError. -/
theorem C92_select_counterexample (l : List TextSrc) (s : StrSeq) (h : getTextSeq l = .inr s) (k : ℤ) :
    s.getItem k = .error .attribute ∧ s.matmulR (.out (.num k)) = .error .attribute := by
  have hs : s.oneIndexed = none := by
    rw [getTextSeq] at h
    split at h
    · cases h; rfl
    · cases h
  have h1 : s.getItem k = .error .attribute := by rw [StrSeq.getItem, hs]
  exact ⟨h1, h1⟩

/-- C92 is false of operators: adding to a sequence of texts (or any other operator that is no comparison) raises AttributeError whatever the other
operand, also if the texts could be added; so does comparing it with a die. -/
theorem C92_operators_counterexample (s : StrSeq) (op : BinOp) (o : TextObj) (hop : op.isCmp = false ∨ ∃ r, o = .rv r) :
    s.binopL op o = .error .attribute ∧ s.invert = .error .attribute ∧
      ((∃ n, o = .out (.num n)) ∨ (∃ t, o = .seq t) ∨ (∃ t, o = .strs t) ∨ (∃ r, o = .rv r) → StrSeq.binopR op o s = .error .attribute) := by
  have key (p : BinOp) (q : TextObj) (hp : p.isCmp = false ∨ ∃ r, q = .rv r) (t : StrSeq) : t.binopL p q = .error .attribute := by
    rcases hp with hp | ⟨r, rfl⟩
    · unfold StrSeq.binopL
      rw [if_neg (by rw [hp]; decide)]
      rfl
    · unfold StrSeq.binopL
      split <;> rfl
  refine ⟨key op o hop s, rfl, ?_⟩
  rintro (⟨n, rfl⟩ | ⟨t, rfl⟩ | ⟨t, rfl⟩ | ⟨r, rfl⟩)
  · rcases hop with hop | ⟨r, hr⟩
    · have h : s.binopL op.swap (.out (.num n)) = .error .attribute := key _ _ (.inl (by revert hop; cases op <;> decide)) s
      exact h
    · cases hr
  · rcases hop with hop | ⟨r, hr⟩
    · have h : s.binopL op.swap (.seq t) = .error .attribute := key _ _ (.inl (by revert hop; cases op <;> decide)) s
      exact h
    · cases hr
  · rcases hop with hop | ⟨r, hr⟩
    · have h : t.binopL op (.strs s) = .error .attribute := key _ _ (.inl hop) t
      exact h
    · cases hr
  · rfl

/-- The entry at a position, counted from 1; the number 0 if there is none. -/
def entryAt (l : List Content) (k : ℤ) : Content := if 1 ≤ k then l.getD (k - 1).toNat (.inl 0) else .inl 0

theorem getItem_content (s : StrSeq) (k : ℤ) : ∃ o, (s.setOneIndexed true).getItem k = .ok o ∧ o.content = entryAt (s.iter.map Out.content) k ∧
    (o ∈ s.iter ∨ o = .num 0) := by
  refine ⟨if 0 ≤ k - 1 ∧ k - 1 < (s.elems.length : ℤ) then s.elems.getD (k - 1).toNat (.num 0) else .num 0, rfl, ?_⟩
  rw [entryAt, StrSeq.iter]
  by_cases h1 : 1 ≤ k
  · by_cases h2 : k - 1 < (s.elems.length : ℤ)
    · have h3 : (k - 1).toNat < s.elems.length := by omega
      rw [if_pos ⟨by omega, h2⟩, if_pos h1, List.getD_eq_getElem _ _ h3, List.getD_eq_getElem _ _ (by rwa [List.length_map]), List.getElem_map]
      exact ⟨rfl, .inl (List.getElem_mem h3)⟩
    · have h3 : s.elems.length ≤ (k - 1).toNat := by omega
      rw [if_neg fun h => h2 h.2, if_pos h1, List.getD_eq_default _ _ (by rwa [List.length_map])]
      exact ⟨rfl, .inr rfl⟩
  · rw [if_neg fun h => h1 (by omega), if_neg h1]
    exact ⟨rfl, .inr rfl⟩

/-- C92, the part on selections: if `set_one_indexed(True)` was called before, `k @ s` is the entry at position k, or 0 if there is none. -/
theorem C92_select_partial (s : StrSeq) (k : ℤ) :
    ∃ o, (s.setOneIndexed true).matmulR (.out (.num k)) = .ok o ∧ o.content = entryAt (s.iter.map Out.content) k := by
  obtain ⟨o, h1, h2, -⟩ := getItem_content s k
  exact ⟨o, h1, h2⟩

/-- C92, the part on selections of several positions: the entries are added to the number 0, one after the other. -/
theorem C92_positions_partial (s : StrSeq) (hs : ∀ x ∈ s.iter, BuiltOut x) (ks : List ℤ) :
    ∃ o, (s.setOneIndexed true).matmulR (.seq ks) = .ok o ∧
      o.content = (ks.map (entryAt (s.iter.map Out.content))).foldl plus (.inl 0) := by
  have key : ∀ (ks : List ℤ), ∃ l, ks.mapM (s.setOneIndexed true).getItem = .ok l ∧ (∀ x ∈ l, BuiltOut x) ∧
      l.map Out.content = ks.map (entryAt (s.iter.map Out.content)) := by
    intro ks
    induction ks with
    | nil => exact ⟨[], rfl, fun _ h => absurd h List.not_mem_nil, rfl⟩
    | cons k ks ih =>
      obtain ⟨l, h1, h2, h3⟩ := ih
      obtain ⟨o, h4, h5, h6⟩ := getItem_content s k
      refine ⟨o :: l, by rw [List.mapM_cons, h4, h1]; rfl, ?_, by rw [List.map_cons, List.map_cons, h5, h3]⟩
      intro x hx
      rcases List.mem_cons.1 hx with rfl | hx
      · rcases h6 with h6 | rfl
        · exact hs _ h6
        · exact .num 0
      · exact h2 x hx
  have fold : ∀ (l : List Out) (a : Out), BuiltOut a → (∀ x ∈ l, BuiltOut x) →
      (l.foldl Out.add a).content = (l.map Out.content).foldl plus a.content := by
    intro l
    induction l with
    | nil => exact fun _ _ _ => rfl
    | cons x l ih =>
      intro a ha hl
      have hx := hl x List.mem_cons_self
      rw [List.foldl_cons, List.map_cons, List.foldl_cons, ih _ (ha.add hx) fun y hy => hl y (List.mem_cons_of_mem _ hy), content_add ha hx]
  obtain ⟨l, h1, h2, h3⟩ := key ks
  refine ⟨l.foldl Out.add (.num 0), ?_, ?_⟩
  · show (do
      let l ← ks.mapM (s.setOneIndexed true).getItem
      return l.foldl Out.add (.num 0) : Except Err Out) = _
    rw [h1]; rfl
  · rw [fold l _ (.num 0) h2, h3]; rfl

/-! ## Examples -/

/-- `get_seq("a", 2, ["b"], d{5, "c"})`: the entries are "a", 2, "b", 5, "c". -/
example : (match getTextSeq [.text ['a'], .num 2, .iter [.text ['b']], .rv ⟨[.num 5, .str (.fromStr ['c'])], [1, 1], none⟩] with
    | .inl _ => none
    | .inr s => some s.elems) = some [.str (.fromStr ['a']), .num 2, .str (.fromStr ['b']), .num 5, .str (.fromStr ['c'])] := by decide +kernel

/-- `{"a", 2, 7} > 5` is 2: the text and 7. -/
example : (match StrSeq.binopL .gt ⟨[.str (.fromStr ['a']), .num 2, .num 7], none⟩ (.out (.num 5)) with
    | .ok (.out o) => some o
    | _ => none) = some (.num 2) := by decide +kernel

/-- `{"a", "b"} == {"a", "b"}` is 1, `{"a"} < {"b", "c"}` is 1 and `{"b", "c"} < {"c"}` is 0. -/
example : ((match StrSeq.binopL .eq ⟨[.str (.fromStr ['a']), .str (.fromStr ['b'])], none⟩ (.strs ⟨[.str (.fromStr ['a']), .str (.fromStr ['b'])], none⟩) with
    | .ok (.out o) => some o
    | _ => none), (match StrSeq.binopL .lt ⟨[.str (.fromStr ['a'])], none⟩ (.strs ⟨[.str (.fromStr ['b']), .str (.fromStr ['c'])], none⟩) with
    | .ok (.out o) => some o
    | _ => none), (match StrSeq.binopL .lt ⟨[.str (.fromStr ['b']), .str (.fromStr ['c'])], none⟩ (.strs ⟨[.str (.fromStr ['c'])], none⟩) with
    | .ok (.out o) => some o
    | _ => none)) = (some (.num 1), some (.num 1), some (.num 0)) := by decide +kernel

/-- Selecting one position and a sequence of one position differ: 2 @ {"a", "b"} is "b", {2} @ {"a", "b"} is "b" + 0, which is not equal to "b". -/
theorem C92_position_counterexample :
    let s := StrSeq.setOneIndexed ⟨[.str (.fromStr ['a']), .str (.fromStr ['b'])], none⟩ true
    (match s.matmulR (.out (.num 2)), s.matmulR (.seq [2]) with
      | .ok a, .ok b => some (decide (a = .str (.fromStr ['b'])), Out.eq a b)
      | _, _ => none) = some (true, false) := by decide +kernel

end PythonDice
