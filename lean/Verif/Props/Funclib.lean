import Verif.Props.Pool

/-!
# Properties of the function library: C19, C20, C21, C25, C45
-/

namespace PythonDice
open Spec

/-- Expectation over an object used as a number. -/
def numLaw : Obj → (ℤ → ℚ) → ℚ
  | .num n, g => g n
  | .seq s, g => g s.sum
  | .rv r, g => Ex r.pairs g
  | .blank _, _ => 0

/-- Expectation over an object used as a sequence: the sorted draws of a pool. -/
def seqLaw : Obj → (List ℤ → ℚ) → ℚ
  | .num n, g => g [n]
  | .seq s, g => g s
  | .rv r, g => ExN r.source.1 r.source.2.pairs fun xs => g (descending xs)
  | .blank _, _ => 0

/-- An object usable as a number: not blank, and of positive total weight if it is a die. -/
def NumOk : Obj → Prop
  | .blank _ => False
  | .rv r => r.Proper
  | _ => True

/-- An object usable as a sequence. -/
def SeqOk : Obj → Prop
  | .blank _ => False
  | .rv r => r.source.2.Proper
  | _ => True

theorem NumOk.arg {a : Obj} (h : NumOk a) : castAborts (some .N, a) = false ∧ ArgOk (some .N, a) := by
  cases a <;> first | exact ⟨rfl, h⟩ | exact ⟨rfl, trivial⟩ | exact absurd h id

theorem SeqOk.arg {a : Obj} (h : SeqOk a) : castAborts (some .S, a) = false ∧ ArgOk (some .S, a) := by
  cases a <;> first | exact ⟨rfl, h⟩ | exact ⟨rfl, trivial⟩ | exact absurd h id

theorem numLaw_arg {a : Obj} (h : NumOk a) (g : Obj → ℚ) : argLaw (some .N, a) g = numLaw a fun n => g (.num n) := by
  cases a <;> first | rfl | exact absurd h id

theorem seqLaw_arg {a : Obj} (h : SeqOk a) (g : Obj → ℚ) : argLaw (some .S, a) g = seqLaw a fun n => g (.seq n) := by
  cases a <;> first | rfl | exact absurd h id

theorem slot_num {a : Obj} (h : NumOk a) {x : Obj × ℕ} (hx : x ∈ (slotOf (some .N, a)).choices) : ∃ n, x.1 = .num n := by
  cases a with
  | num n => simp [slotOf, Slot.choices] at hx; exact ⟨n, by rw [hx]⟩
  | seq s => simp [slotOf, Slot.choices] at hx; exact ⟨s.sum, by rw [hx]⟩
  | rv r =>
    simp only [slotOf, Slot.choices, List.mem_map] at hx
    obtain ⟨y, _, rfl⟩ := hx
    exact ⟨y.1, rfl⟩
  | blank b => exact absurd h id

theorem slot_seq {a : Obj} (h : SeqOk a) {x : Obj × ℕ} (hx : x ∈ (slotOf (some .S, a)).choices) : ∃ n, x.1 = .seq n := by
  cases a with
  | num n => simp [slotOf, Slot.choices] at hx; exact ⟨[n], by rw [hx]⟩
  | seq s => simp [slotOf, Slot.choices] at hx; exact ⟨s, by rw [hx]⟩
  | rv r =>
    simp only [slotOf, Slot.choices, List.mem_map] at hx
    obtain ⟨y, _, rfl⟩ := hx
    exact ⟨y.1, rfl⟩
  | blank b => exact absurd h id

theorem mem_combos1 {s : Slot} {c : List Obj × ℕ} (h : c ∈ combos [s]) : ∃ x ∈ s.choices, c.1 = [x.1] := by
  simp only [combos, List.mem_flatMap, List.mem_map, List.mem_singleton] at h
  obtain ⟨x, hx, _, rfl, rfl⟩ := h
  exact ⟨x, hx, rfl⟩

theorem mem_combos_cons {s : Slot} {ss : List Slot} {c : List Obj × ℕ} (h : c ∈ combos (s :: ss)) :
    ∃ x ∈ s.choices, ∃ c' ∈ combos ss, c.1 = x.1 :: c'.1 := by
  simp only [combos, List.mem_flatMap, List.mem_map] at h
  obtain ⟨x, hx, c', hc', rfl⟩ := h
  exact ⟨x, hx, c', hc', rfl⟩

/-- Calling a function that computes a number from its converted arguments. -/
theorem triple_numFn {I : Settings → Prop} {f : List Obj → M (Option Obj)} {φ : List Obj → ℤ} {args : List (Option Ty × Obj)}
    (hargs : ∀ a ∈ args, castAborts a = false ∧ ArgOk a)
    (hf : ∀ c ∈ combos (args.map slotOf), f c.1 = pure (some (.num (φ c.1)))) :
    Triple I (orBlank (castCall f args)) fun o => resLaw (some o) = some fun g => argsLaw args fun c => g (φ c) := by
  have hA : ∀ a ∈ args, ArgOk a := fun a ha => (hargs a ha).2
  have h1 : resultProb args (fun c => some fun g : ℤ → ℚ => g (φ c)) = 1 := by
    simp only [resultProb, Option.isSome_some, if_true]
    rw [← args_Ex hA, Ex_const (args_mass hA)]
  refine Triple.map (triple_castCall (L := fun c => some fun g => g (φ c)) (fun a ha => (hargs a ha).1) hA
    (fun c hc => by rw [hf c hc]; exact Triple.pure ⟨rfl, trivial⟩) (by rw [h1]; exact one_ne_zero)) ?_
  rintro v ⟨_, hv⟩
  cases v with
  | none => simp [resLaw] at hv
  | some o =>
    rw [Option.getD_some, hv, h1]
    simp [resultMass]

/-! ## C21 -/

/-- C21. `absolute`: the law of `|x|`. -/
theorem C21_absolute {w w' : World} (hw : Reachable w) {a o : Obj} (ha : NumOk a) (h : absolute a w = (.ok o, w'))
    (h0 : w'.warns = 0) : resLaw (some o) = some fun g => numLaw a fun x => g |x| := by
  have T := triple_numFn (I := fun _ => True) (f := absoluteFn) (args := [(some .N, a)])
    (φ := fun c => match c with | [.num n] => |n| | _ => 0) (by simpa using ha.arg) (fun c hc => by
      obtain ⟨x, hx, e⟩ := mem_combos1 hc
      obtain ⟨n, hn⟩ := slot_num ha hx
      rw [e, hn]
      simp only [absoluteFn]
      congr 3
      split
      · rw [abs_of_neg (by assumption)]
      · rw [abs_of_nonneg (by omega)])
  have := T.run hw trivial h h0
  simpa only [argsLaw, numLaw_arg ha] using this

/-- C21. On numbers. -/
theorem C21_absolute_num (n : ℤ) (w : World) : absolute (.num n) w = (.ok (.num |n|), w) := by
  have : (if n < 0 then -n else n) = |n| := by
    split
    · rw [abs_of_neg (by assumption)]
    · rw [abs_of_nonneg (by omega)]
  rw [← this]
  rfl

theorem seqCmpNum_eq (s : List ℤ) (n : ℤ) : seqCmpNum .eq s n = (s.count n : ℕ) := by
  unfold seqCmpNum
  congr 1
  rw [← List.countP_eq_length_filter, List.count]
  rfl

/-- C21. `contains`: whether the number is in the sequence. -/
theorem C21_contains {w w' : World} (hw : Reachable w) {s n o : Obj} (hs : SeqOk s) (hn : NumOk n)
    (h : contains s n w = (.ok o, w')) (h0 : w'.warns = 0) :
    resLaw (some o) = some fun g => seqLaw s fun xs => numLaw n fun x => g (if x ∈ xs then 1 else 0) := by
  have T := triple_numFn (I := fun _ => True) (f := containsFn) (args := [(some .S, s), (some .N, n)])
    (φ := fun c => match c with | [.seq s, .num n] => if n ∈ s then 1 else 0 | _ => 0)
    (by simpa using ⟨hs.arg, hn.arg⟩) (fun c hc => by
      obtain ⟨x, hx, c', hc', e⟩ := mem_combos_cons hc
      obtain ⟨y, hy, e'⟩ := mem_combos1 hc'
      obtain ⟨k, hk⟩ := slot_seq hs hx
      obtain ⟨m, hm⟩ := slot_num hn hy
      rw [e, e', hk, hm]
      simp only [containsFn, seqCmpNum_eq, ofBool]
      congr 3
      by_cases hmem : m ∈ k
      · rw [if_pos hmem, if_pos]
        simpa [List.count_pos_iff] using hmem
      · rw [if_neg hmem, if_neg]
        simpa [List.count_pos_iff] using hmem)
  have := T.run hw trivial h h0
  simpa only [argsLaw, numLaw_arg hn, seqLaw_arg hs] using this

theorem countLoop (vs s : List ℤ) :
    (pyRange 1 (vs.length + 1)).foldl (fun count p => count + seqCmpNum .eq s (getItem vs p)) 0 =
      (vs.map fun v => (s.count v : ℤ)).sum := by
  have e : pyRange 1 ((vs.length : ℤ) + 1) = (List.range vs.length).map fun i : ℕ => (1 : ℤ) + i := by
    unfold pyRange; congr 2; omega
  rw [e, List.foldl_map]
  have hg : ∀ i : ℕ, i < vs.length → getItem vs (1 + (i : ℤ)) = vs.getD i 0 := by
    intro i hi
    unfold getItem
    rw [if_pos (by omega)]
    congr 1; omega
  have key : ∀ k ≤ vs.length, (List.range k).foldl (fun (count : ℤ) (i : ℕ) => count + seqCmpNum .eq s (getItem vs (1 + (i : ℤ)))) 0 =
      ((vs.take k).map fun v => (s.count v : ℤ)).sum := by
    intro k hk
    induction k with
    | zero => simp
    | succ k ih =>
      rw [List.range_succ, List.foldl_append, ih (by omega), List.foldl_cons, List.foldl_nil, hg k (by omega), seqCmpNum_eq,
        List.take_succ_eq_append_getElem (by omega), List.map_append, List.sum_append]
      simp [List.getD_eq_getElem?_getD, List.getElem?_eq_getElem (show k < vs.length by omega)]
  have := key vs.length le_rfl
  rwa [List.take_length] at this

/-- C21. `count_in`: how many matches there are. -/
theorem C21_count_in {w w' : World} (hw : Reachable w) {v s o : Obj} (hv : SeqOk v) (hs : SeqOk s)
    (h : countIn v s w = (.ok o, w')) (h0 : w'.warns = 0) :
    resLaw (some o) = some fun g => seqLaw v fun vs => seqLaw s fun xs => g (vs.map fun x => (xs.count x : ℤ)).sum := by
  have T := triple_numFn (I := fun _ => True) (f := countInFn) (args := [(some .S, v), (some .S, s)])
    (φ := fun c => match c with | [.seq vs, .seq xs] => (vs.map fun x => (xs.count x : ℤ)).sum | _ => 0)
    (by simpa using ⟨hv.arg, hs.arg⟩) (fun c hc => by
      obtain ⟨x, hx, c', hc', e⟩ := mem_combos_cons hc
      obtain ⟨y, hy, e'⟩ := mem_combos1 hc'
      obtain ⟨k, hk⟩ := slot_seq hv hx
      obtain ⟨m, hm⟩ := slot_seq hs hy
      rw [e, e', hk, hm]
      simp only [countInFn, countLoop])
  have := T.run hw trivial h h0
  simpa only [argsLaw, seqLaw_arg hv, seqLaw_arg hs] using this

/-- C21. On sequences and numbers. -/
theorem C21_contains_count_plain (s vs : List ℤ) (n : ℤ) (w : World) :
    contains (.seq s) (.num n) w = (.ok (.num (if n ∈ s then 1 else 0)), w) ∧
    countIn (.seq vs) (.seq s) w = (.ok (.num (vs.map fun x => (s.count x : ℤ)).sum), w) := by
  constructor
  · have : (if n ∈ s then (1 : ℤ) else 0) = ofBool (decide (seqCmpNum .eq s n > 0)) := by
      rw [seqCmpNum_eq, ofBool]
      by_cases hmem : n ∈ s
      · rw [if_pos hmem, if_pos]
        simpa [List.count_pos_iff] using hmem
      · rw [if_neg hmem, if_neg]
        simpa [List.count_pos_iff] using hmem
    rw [this]; rfl
  · rw [← countLoop]; rfl

/-- C21. `highest_of_N_and_N`: the larger of two independent numbers. -/
theorem C21_highest {w w' : World} (hw : Reachable w) {a b o : Obj} (ha : NumOk a) (hb : NumOk b)
    (h : highestOf a b w = (.ok o, w')) (h0 : w'.warns = 0) :
    resLaw (some o) = some fun g => numLaw a fun x => numLaw b fun y => g (max x y) := by
  have T := triple_numFn (I := fun _ => True) (f := highestOfFn) (args := [(some .N, a), (some .N, b)])
    (φ := fun c => match c with | [.num x, .num y] => max x y | _ => 0)
    (by simpa using ⟨ha.arg, hb.arg⟩) (fun c hc => by
      obtain ⟨x, hx, c', hc', e⟩ := mem_combos_cons hc
      obtain ⟨y, hy, e'⟩ := mem_combos1 hc'
      obtain ⟨k, hk⟩ := slot_num ha hx
      obtain ⟨m, hm⟩ := slot_num hb hy
      rw [e, e', hk, hm]
      simp only [highestOfFn]
      congr 3
      split <;> omega)
  have := T.run hw trivial h h0
  simpa only [argsLaw, numLaw_arg ha, numLaw_arg hb] using this

/-- C21. `lowest_of_N_and_N`: the smaller of two independent numbers. -/
theorem C21_lowest {w w' : World} (hw : Reachable w) {a b o : Obj} (ha : NumOk a) (hb : NumOk b)
    (h : lowestOf a b w = (.ok o, w')) (h0 : w'.warns = 0) :
    resLaw (some o) = some fun g => numLaw a fun x => numLaw b fun y => g (min x y) := by
  have T := triple_numFn (I := fun _ => True) (f := lowestOfFn) (args := [(some .N, a), (some .N, b)])
    (φ := fun c => match c with | [.num x, .num y] => min x y | _ => 0)
    (by simpa using ⟨ha.arg, hb.arg⟩) (fun c hc => by
      obtain ⟨x, hx, c', hc', e⟩ := mem_combos_cons hc
      obtain ⟨y, hy, e'⟩ := mem_combos1 hc'
      obtain ⟨k, hk⟩ := slot_num ha hx
      obtain ⟨m, hm⟩ := slot_num hb hy
      rw [e, e', hk, hm]
      simp only [lowestOfFn]
      congr 3
      split <;> omega)
  have := T.run hw trivial h h0
  simpa only [argsLaw, numLaw_arg ha, numLaw_arg hb] using this

/-- C21. On numbers. -/
theorem C21_highest_lowest_num (x y : ℤ) (w : World) :
    highestOf (.num x) (.num y) w = (.ok (.num (max x y)), w) ∧ lowestOf (.num x) (.num y) w = (.ok (.num (min x y)), w) := by
  have h1 : max x y = if x > y then x else y := by split <;> omega
  have h2 : min x y = if x < y then x else y := by split <;> omega
  rw [h1, h2]
  exact ⟨rfl, rfl⟩

example : absolute (.rv ⟨[-2, 1, 2], [1, 1, 1], none⟩) {} = (.ok (.rv ⟨[1, 2], [1, 2], none⟩), {}) := by decide +kernel
example : countIn (.seq [1, 1, 3]) (.rv ⟨[1, 2], [1, 1], none⟩) {} = (.ok (.rv ⟨[0, 2], [1, 1], none⟩), {}) := by decide +kernel
example : highestOf (.rv ⟨[1, 2], [1, 1], none⟩) (.rv ⟨[1, 3], [1, 1], none⟩) {} =
    (.ok (.rv ⟨[1, 2, 3], [1, 1, 2], none⟩), {}) := by decide +kernel

/-! ## C25 -/

/-- C25. `sort` returns the descending permutation, `reverse` the reversed sequence. -/
theorem C25_sort_reverse (s : List ℤ) (w : World) :
    (∃ t, sort (.seq s) w = (.ok (.seq t), w) ∧ t.Perm s ∧ t.Pairwise (· ≥ ·)) ∧
      reverse (.seq s) w = (.ok (.seq s.reverse), w) :=
  ⟨⟨descending s, rfl, descending_perm s, descending_sorted s⟩, rfl⟩

theorem getItem_nth (s : List ℤ) (i : ℕ) (hi : i < s.length) : getItem s (1 + (i : ℤ)) = s[i] := by
  unfold getItem
  rw [if_pos (by omega)]
  have : (1 + (i : ℤ) - 1).toNat = i := by omega
  rw [this, List.getD_eq_getElem?_getD, List.getElem?_eq_getElem hi, Option.getD_some]

theorem pyRange_one (n : ℕ) : pyRange 1 ((n : ℤ) + 1) = (List.range n).map fun i : ℕ => (1 : ℤ) + i := by
  unfold pyRange; congr 2; omega

/-- `[s[p] for p in range(1, len(s) + 1)]` is `s`. -/
theorem map_getItem (s : List ℤ) : (pyRange 1 (s.length + 1)).map (getItem s) = s := by
  rw [pyRange_one, List.map_map]
  apply List.ext_getElem
  · simp
  · intro i h1 h2
    simp only [List.getElem_map, List.getElem_range, Function.comp]
    exact getItem_nth s i h2

theorem reverseSlowFn_eq : reverseSlowFn = reverseFn := by
  funext l
  match l with
  | [.seq s] =>
    have e : (pyRange 1 (s.length + 1)).foldl (fun r p => getItem s p :: r) [] = s.reverse := by
      have : ∀ (l : List ℤ) (acc : List ℤ), l.foldl (fun r p => getItem s p :: r) acc = (l.map (getItem s)).reverse ++ acc := by
        intro l
        induction l with
        | nil => intro acc; rfl
        | cons x l ih => intro acc; simp [ih]
      rw [this, map_getItem, List.append_nil]
    unfold reverseSlowFn reverseFn
    simp only
    rw [e]
  | [] => rfl
  | [.num _] => rfl
  | [.rv _] => rfl
  | [.blank _] => rfl
  | a :: _ :: _ => cases a <;> rfl

/-- C25. `reverse_VANILLA_SLOW` does the same as `reverse`, for sequences and for everything that is converted to them. -/
theorem C25_reverse_slow (o : Obj) (w : World) : reverseSlow o w = reverse o w := by
  unfold reverseSlow reverse
  rw [reverseSlowFn_eq]

/-- Insert into a descending sequence. -/
def insertDesc (n : ℤ) (s : List ℤ) : List ℤ := s.orderedInsert (fun a b : ℤ => b ≤ a) n

theorem sortHelper_loop (s : List ℤ) (acc : List ℤ) :
    s.foldl (fun (a : List ℤ × Option ℤ) x => match a.2 with
      | some n => if n ≥ x then (a.1 ++ [n, x], none) else (a.1 ++ [x], some n)
      | none => (a.1 ++ [x], none)) (acc, none) = (acc ++ s, none) := by
  induction s generalizing acc with
  | nil => simp
  | cons x s ih => simp [ih]

theorem sortHelper_loop' (n : ℤ) (s : List ℤ) (acc : List ℤ) (h : ∃ x ∈ s, x ≤ n) :
    s.foldl (fun (a : List ℤ × Option ℤ) x => match a.2 with
      | some n => if n ≥ x then (a.1 ++ [n, x], none) else (a.1 ++ [x], some n)
      | none => (a.1 ++ [x], none)) (acc, some n) = (acc ++ insertDesc n s, none) := by
  induction s generalizing acc with
  | nil => obtain ⟨x, hx, _⟩ := h; simp at hx
  | cons y s ih =>
    rw [List.foldl_cons]
    simp only
    by_cases hy : n ≥ y
    · rw [if_pos hy, sortHelper_loop]
      simp [insertDesc, List.orderedInsert, hy]
    · rw [if_neg hy, ih]
      · simp [insertDesc, List.orderedInsert, hy]
      · obtain ⟨x, hx, hx'⟩ := h
        rcases List.mem_cons.1 hx with rfl | hx
        · exact absurd hx' hy
        · exact ⟨x, hx, hx'⟩

theorem insertDesc_head {n y : ℤ} {s : List ℤ} (h : n ≥ y) : insertDesc n (y :: s) = n :: y :: s := by
  simp [insertDesc, List.orderedInsert, h]

theorem insertDesc_append {n : ℤ} {s : List ℤ} (h : ∀ x ∈ s, n < x) : insertDesc n s = s ++ [n] := by
  induction s with
  | nil => rfl
  | cons y s ih =>
    have := h y List.mem_cons_self
    have ih := ih fun x hx => h x (List.mem_cons_of_mem _ hx)
    unfold insertDesc at ih ⊢
    rw [List.orderedInsert, if_neg (by omega), ih]; rfl

theorem sortHelper_eq (n : ℤ) (s : List ℤ) (hs : s.Pairwise (· ≥ ·)) (w : World) :
    ∃ t, sortHelper (.num n) (.seq s) w = (.ok (.seq t), w) ∧ t.Perm (n :: s) ∧ t.Pairwise (· ≥ ·) := by
  have hbody : ∀ t, sortHelperFn [.num n, .seq s] = pure (some (.seq t)) → sortHelper (.num n) (.seq s) w = (.ok (.seq t), w) := by
    intro t h
    unfold sortHelper orBlank
    rw [C15_no_dice _ _ (by simp [castAborts]) (by simp [IsRandom])]
    change (sortHelperFn [.num n, .seq s] >>= _) w = _
    rw [h]; rfl
  have hperm : (insertDesc n s).Perm (n :: s) := List.perm_orderedInsert _ _ _
  cases hsl : s with
  | nil =>
    refine ⟨[n], ?_, by simp, by simp⟩
    rw [← hsl]
    apply hbody
    rw [hsl]; rfl
  | cons y s' =>
    rw [← hsl]
    have h1 : getItem s 1 = y := by
      have := getItem_nth s 0 (by rw [hsl]; simp)
      simpa [hsl] using this
    have hlen : s.length ≠ 0 := by rw [hsl]; simp
    by_cases hy : n ≥ y
    · refine ⟨n :: s, hbody _ ?_, List.Perm.refl _, ?_⟩
      · simp only [sortHelperFn]
        rw [if_neg hlen, h1, if_pos hy]
      · rw [List.pairwise_cons]
        refine ⟨fun x hx => ?_, hs⟩
        rw [hsl] at hx hs
        rcases List.mem_cons.1 hx with rfl | hx
        · exact hy
        · exact le_trans ((List.pairwise_cons.1 hs).1 x hx) hy
    · have hlast : getItem s s.length = s[s.length - 1]'(by omega) := by
        have := getItem_nth s (s.length - 1) (by omega)
        rw [← this]; congr 1; omega
      by_cases hl : n ≤ getItem s s.length
      · refine ⟨s ++ [n], hbody _ ?_, List.perm_append_singleton n s, ?_⟩
        · simp only [sortHelperFn]
          rw [if_neg hlen, h1, if_neg hy, if_pos hl]
        · rw [List.pairwise_append]
          refine ⟨hs, by simp, fun a ha b hb => ?_⟩
          rw [List.mem_singleton] at hb
          subst hb
          obtain ⟨i, hi, rfl⟩ := List.getElem_of_mem ha
          rw [hlast] at hl
          refine le_trans hl ?_
          rcases Nat.lt_or_ge i (s.length - 1) with h | h
          · exact List.pairwise_iff_getElem.1 hs i (s.length - 1) hi (by omega) h
          · have : i = s.length - 1 := by omega
            subst this; exact le_refl _
      · refine ⟨insertDesc n s, hbody _ ?_, hperm, ?_⟩
        · simp only [sortHelperFn]
          rw [if_neg hlen, h1, if_neg hy, if_neg hl]
          have e : (pyRange 1 (s.length + 1)).foldl (sortHelperStep s) ([], some n) = ([] ++ insertDesc n s, none) := by
            rw [← sortHelper_loop' n s [] ⟨getItem s s.length, by rw [hlast]; exact List.getElem_mem _, by omega⟩]
            conv_rhs => rw [← map_getItem s]
            rw [List.foldl_map]
            rfl
          rw [e]; rfl
        · exact hs.orderedInsert n s 

theorem sortSlowLoop_eq (s : List ℤ) (ps : List ℤ) (acc : List ℤ) (hacc : acc.Pairwise (· ≥ ·)) (w : World) :
    ∃ t, sortSlowLoop s ps (.seq acc) w = (.ok (.seq t), w) ∧ t.Perm (ps.map (getItem s) ++ acc) ∧ t.Pairwise (· ≥ ·) := by
  induction ps generalizing acc with
  | nil => exact ⟨acc, rfl, List.Perm.refl _, hacc⟩
  | cons p ps ih =>
    obtain ⟨t, h1, h2, h3⟩ := sortHelper_eq (getItem s p) acc hacc w
    obtain ⟨t', g1, g2, g3⟩ := ih t h3
    refine ⟨t', ?_, ?_, g3⟩
    · change (sortHelper (.num (getItem s p)) (.seq acc) >>= _) w = _
      rw [M.bind_ok h1]; exact g1
    · refine g2.trans ?_
      refine (List.Perm.append_left _ h2).trans ?_
      simp only [List.map_cons, List.cons_append]
      exact List.perm_middle

theorem sortSlowFn_eq : sortSlowFn = sortFn := by
  funext l
  match l with
  | [.seq s] =>
    funext w
    obtain ⟨t, h1, h2, h3⟩ := sortSlowLoop_eq s (pyRange 1 (s.length + 1)) [] (by simp) w
    rw [List.append_nil, map_getItem] at h2
    have e : sortFn [.seq s] w = (.ok (some (.seq (descending s))), w) := rfl
    rw [e, ← eq_descending h2 h3]
    exact M.map_ok h1
  | [] => rfl
  | [.num _] => rfl
  | [.rv _] => rfl
  | [.blank _] => rfl
  | a :: _ :: _ => cases a <;> rfl

/-- C25. `sort_VANILLA_SLOW` does the same as `sort`, for sequences and for everything that is converted to them. -/
theorem C25_sort_slow (o : Obj) (w : World) : sortSlow o w = sort o w := by
  unfold sortSlow sort
  rw [sortSlowFn_eq]

/-- C25. `reverse` is an involution and `sort` is idempotent. -/
theorem C25_involution_idempotent (s : List ℤ) (w : World) :
    (do let r ← reverse (.seq s); reverse r) w = (.ok (.seq s), w) ∧
      (do let r ← sort (.seq s); sort r) w = sort (.seq s) w := by
  constructor
  · have : (do let r ← reverse (.seq s); reverse r) w = (.ok (.seq s.reverse.reverse), w) := rfl
    rw [this, List.reverse_reverse]
  · have : (do let r ← sort (.seq s); sort r) w = (.ok (.seq (descending (descending s))), w) := rfl
    rw [this]
    have e : descending (descending s) = descending s :=
      (eq_descending (List.Perm.refl _) (descending_sorted s)).symm
    rw [e]; rfl

example : sortSlow (.num 7) {} = (.ok (.seq [7]), {}) := by decide +kernel
example : sortSlow (.seq [3, 1, 4, 1, 5]) {} = (.ok (.seq [5, 4, 3, 1, 1]), {}) := by decide +kernel

end PythonDice
