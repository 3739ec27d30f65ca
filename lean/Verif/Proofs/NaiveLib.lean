import Verif.Proofs.NaiveSelect
import Verif.Props.Funclib

/-! The library functions against functions on all outcomes. -/

namespace PythonDice
open Spec
open Spec.Naive (Law Val mean sure push andThen uniform draws support nothing random convert choices allChoices outcomes mixed callAll)

namespace Enum

/-- What functions stand for, in these settings. -/
def FnRep (I : Settings → Prop) (e : Naive.Table) : Spec.Fn → Naive.Fun → Prop
  | .lib f, .lib g => ∀ os vs x, List.Forall₂ Rep os vs → g e vs = some x → Full I (f os) fun y => Rep y x
  | .user d b, .user d' b' => d = d' ∧ b = b' ∧ Naive.plainB false b = true
  | _, _ => False

theorem orBlank_rep {I : Settings → Prop} {m : M (Option Obj)} {v : Val} (h : Full I m fun o => Rep (o.getD (.blank false)) v) :
    Full I (orBlank m) fun y => Rep y v :=
  Full.bind h (fun _ ho => Full.pure ho) fun _ => Triple.pure True.intro

theorem lib1_rep {I : Settings → Prop} {e : Naive.Table} {t : Ty} {F : List Obj → M (Option Obj)} {f : Val → Option Val}
    (h : ∀ o v x, Rep o v → f v = some x → Full I (F [o]) fun y => RepO y (some x)) :
    FnRep I e (fn1 fun a => orBlank (castCall F [(some t, a)])) (Naive.lib1 t f) := by
  intro os vs x hos hx
  match vs, hos, hx with
  | [v], .cons hd .nil, hx =>
    refine orBlank_rep (full_castRep (vals := [(some t, v)]) (.cons ⟨rfl, hd⟩ .nil) ?_ hx)
    intro os vs r hos hr
    match vs, hos, hr with
    | [u], .cons hd .nil, hr =>
      simp only [Option.map_eq_some_iff] at hr
      obtain ⟨x, hx, rfl⟩ := hr
      exact h _ _ _ hd hx

theorem lib2_rep {I : Settings → Prop} {e : Naive.Table} {t t' : Ty} {F : List Obj → M (Option Obj)} {f : Val → Val → Option Val}
    (h : ∀ o o' v v' x, Rep o v → Rep o' v' → f v v' = some x → Full I (F [o, o']) fun y => RepO y (some x)) :
    FnRep I e (fn2 fun a b => orBlank (castCall F [(some t, a), (some t', b)])) (Naive.lib2 t t' f) := by
  intro os vs x hos hx
  match vs, hos, hx with
  | [v, v'], .cons hd (.cons hd' .nil), hx =>
    refine orBlank_rep (full_castRep (vals := [(some t, v), (some t', v')]) (.cons ⟨rfl, hd⟩ (.cons ⟨rfl, hd'⟩ .nil)) ?_ hx)
    intro os vs r hos hr
    match vs, hos, hr with
    | [u, u'], .cons hd (.cons hd' .nil), hr =>
      simp only [Option.map_eq_some_iff] at hr
      obtain ⟨x, hx, rfl⟩ := hr
      exact h _ _ _ _ _ hd hd' hx

theorem libSel_rep {I : Settings → Prop} {e : Naive.Table} {F : List Obj → M (Option Obj)} {f : Bool → Val → Val → Option Val}
    (h : ∀ o o' v v' x, Rep o v → Rep o' v' → f e.low v v' = some x → Full I (F [o, o']) fun y => RepO y (some x)) :
    FnRep I e (fn2 fun a b => orBlank (castCall F [(some .N, a), (some .D, b)])) (Naive.libSel f) := by
  have := lib2_rep (I := I) (e := e) (t := .N) (t' := .D) (F := F) (f := f e.low) h
  exact this

variable {I : Settings → Prop} {e : Naive.Table}

theorem absolute_body (o : Obj) (v x : Val) (h : Rep o v) (hx : Naive.absVal v = some x) : Full I (absoluteFn [o]) fun y => RepO y (some x) := by
  cases v <;> simp only [Naive.absVal, Option.some.injEq, reduceCtorEq] at hx
  subst hx
  rw [h.num_inv]
  refine Full.pure ?_
  rename_i n
  change (if n < 0 then -n else n) = |n|
  split_ifs with h0
  · exact (abs_of_neg h0).symm
  · exact (abs_of_nonneg (by omega)).symm

theorem absolute_rep : FnRep I e (fn1 absolute) (Naive.lib1 .N Naive.absVal) := lib1_rep absolute_body

theorem contains_body (o o' : Obj) (v v' x : Val) (h : Rep o v) (h' : Rep o' v') (hx : Naive.containsVal v v' = some x) :
    Full I (containsFn [o, o']) fun y => RepO y (some x) := by
  cases v <;> cases v' <;> simp only [Naive.containsVal, Option.some.injEq, reduceCtorEq] at hx
  subst hx
  rw [h.seq_inv, h'.num_inv]
  refine Full.pure ?_
  rename_i s n
  change ofBool (decide (seqCmpNum (libOp .eq) s n > 0)) = Naive.bit (decide (n ∈ s))
  rw [seqCmpNum_count]
  have : (((s.countP fun x => Naive.test .eq x n : ℕ) : ℤ) > 0) ↔ n ∈ s := by
    rw [gt_iff_lt, Int.natCast_pos, List.countP_pos_iff]
    simp [Naive.test]
  simp only [this]
  rfl

theorem contains_rep : FnRep I e (fn2 contains) (Naive.lib2 .S .N Naive.containsVal) := lib2_rep contains_body

theorem countIn_body (o o' : Obj) (v v' x : Val) (h : Rep o v) (h' : Rep o' v') (hx : Naive.countVal v v' = some x) :
    Full I (countInFn [o, o']) fun y => RepO y (some x) := by
  cases v <;> cases v' <;> simp only [Naive.countVal, Option.some.injEq, reduceCtorEq] at hx
  subst hx
  rw [h.seq_inv, h'.seq_inv]
  refine Full.pure ?_
  rename_i s n
  change (_ : ℤ) = _
  rw [countLoop]
  push_cast
  rw [List.map_map]
  rfl

theorem countIn_rep : FnRep I e (fn2 countIn) (Naive.lib2 .S .S Naive.countVal) := lib2_rep countIn_body

theorem highestOf_body (o o' : Obj) (v v' x : Val) (h : Rep o v) (h' : Rep o' v') (hx : Naive.maxVal v v' = some x) :
    Full I (highestOfFn [o, o']) fun y => RepO y (some x) := by
  cases v <;> cases v' <;> simp only [Naive.maxVal, Option.some.injEq, reduceCtorEq] at hx
  subst hx
  rw [h.num_inv, h'.num_inv]
  refine Full.pure ?_
  rename_i a b
  change (if a > b then a else b) = max a b
  split_ifs <;> omega

theorem highestOf_rep : FnRep I e (fn2 highestOf) (Naive.lib2 .N .N Naive.maxVal) := lib2_rep highestOf_body

theorem lowestOf_body (o o' : Obj) (v v' x : Val) (h : Rep o v) (h' : Rep o' v') (hx : Naive.minVal v v' = some x) :
    Full I (lowestOfFn [o, o']) fun y => RepO y (some x) := by
  cases v <;> cases v' <;> simp only [Naive.minVal, Option.some.injEq, reduceCtorEq] at hx
  subst hx
  rw [h.num_inv, h'.num_inv]
  refine Full.pure ?_
  rename_i a b
  change (if a < b then a else b) = min a b
  split_ifs <;> omega

theorem lowestOf_rep : FnRep I e (fn2 lowestOf) (Naive.lib2 .N .N Naive.minVal) := lib2_rep lowestOf_body

theorem reverse_body (o : Obj) (v x : Val) (h : Rep o v) (hx : Naive.reverseVal v = some x) : Full I (reverseFn [o]) fun y => RepO y (some x) := by
  cases v <;> simp only [Naive.reverseVal, Option.some.injEq, reduceCtorEq] at hx
  subst hx
  rw [h.seq_inv]
  exact Full.pure rfl

theorem reverse_rep : FnRep I e (fn1 reverse) (Naive.lib1 .S Naive.reverseVal) := lib1_rep reverse_body

theorem sort_body (o : Obj) (v x : Val) (h : Rep o v) (hx : Naive.sortVal v = some x) : Full I (sortFn [o]) fun y => RepO y (some x) := by
  cases v <;> simp only [Naive.sortVal, Option.some.injEq, reduceCtorEq] at hx
  subst hx
  rw [h.seq_inv]
  exact Full.pure rfl

theorem sort_rep : FnRep I e (fn1 sort) (Naive.lib1 .S Naive.sortVal) := lib1_rep sort_body

section
variable (hI : ∀ st, I st → st.positionOrder = order e.low)
include hI

theorem highestN_rep : FnRep I e (fn2 highestN) (Naive.libSel Naive.highestVal) := by
  refine libSel_rep fun o o' v v' x h h' hx => ?_
  cases v <;> simp only [Naive.highestVal, reduceCtorEq] at hx
  rw [h.num_inv]
  exact Full.map (full_matmul hI (a := .seq _) (u := .seq _) rfl h' hx (fun _ _ e => by cases e)) fun _ hy => hy

theorem lowestN_rep : FnRep I e (fn2 lowestN) (Naive.libSel Naive.lowestVal) := by
  refine libSel_rep fun o o' v v' x h h' hx => ?_
  cases v <;> simp only [Naive.lowestVal, Option.bind_eq_bind, Option.bind_eq_some_iff, reduceCtorEq] at hx
  obtain ⟨k, hk, hx⟩ := hx
  rw [h.num_inv]
  rename_i n
  change Full I (some <$> matmul (.seq (pyRange ((myLen o' : ℤ) - n + 1) ((myLen o' : ℤ) + 1))) o') _
  rw [myLen_size h' hk]
  exact Full.map (full_matmul hI (a := .seq _) (u := .seq _) rfl h' hx (fun _ _ e => by cases e)) fun _ hy => hy

theorem middleN_rep : FnRep I e (fn2 middleN) (Naive.libSel Naive.middleVal) := by
  refine libSel_rep fun o o' v v' x h h' hx => ?_
  cases v <;> simp only [Naive.middleVal, Option.bind_eq_bind, Option.bind_eq_some_iff, reduceCtorEq] at hx
  obtain ⟨k, hk, hx⟩ := hx
  rw [h.num_inv]
  rename_i n
  have e := myLen_size h' hk
  simp only [middleNFn, e]
  by_cases h1 : n = (k : ℤ)
  · rw [if_pos h1] at hx ⊢
    cases hx
    exact Full.pure h'
  · rw [if_neg h1] at hx ⊢
    by_cases h2 : n = 1
    · rw [if_pos h2] at hx ⊢
      exact Full.map (full_matmul hI (a := .num _) (u := .num _) rfl h' hx (fun _ _ e e' => by subst e'; cases hx)) fun _ hy => hy
    · rw [if_neg h2] at hx ⊢
      refine Full.map (full_matmul hI (a := .seq _) ?_ h' hx (fun _ _ e => by cases e)) fun _ hy => hy
      change pyRange _ _ = pyRange _ _
      congr 1
      ring
end

/-! ## Maximum -/

theorem highest_support (l : Law) : Naive.highest (support l) = (support l).reverse.headD 0 := by
  have hs : (support l).Pairwise (· ≤ ·) := List.pairwise_insertionSort _ _
  have h2 : descending (support l) = (support l).reverse := by
    have p : (support l).reverse.Pairwise (fun a b => b ≤ a) := List.pairwise_reverse.2 hs
    have q : (descending (support l)).Pairwise (fun a b => b ≤ a) := List.pairwise_insertionSort _ _
    refine List.Perm.eq_of_pairwise (fun a b _ _ h1 h2 => le_antisymm h2 h1) q p ?_
    exact (List.perm_insertionSort _ _).trans (List.reverse_perm _).symm
  rw [Naive.highest, h2]

/-- The body of `maximum_of`. -/
def maxG : List Val → Option (Option Val)
  | [.die l _] => some (some (.num (Naive.highest (support l))))
  | [.blank _] => some (some (.num 0))
  | _ => none

theorem getItem_one (s : List ℤ) : getItem s 1 = s.headD 0 := by
  rw [elemAt_eq]
  cases s <;> simp [Naive.elemAt]

theorem full_maxBody (s : List ℤ) : Full I (do
    let r ← reverse (.seq s)
    return some (← matmul (.num 1) r)) fun o => o = some (.num (s.reverse.headD 0)) := by
  have e : reverse (.seq s) = pure (.seq s.reverse) := by
    unfold reverse
    rw [C15_no_dice _ _ (by simp [castAborts]) (by simp [IsRandom])]
    rfl
  rw [e]
  refine Full.bind (P := fun o => o = .seq s.reverse) (Full.pure rfl) (fun o ho => ?_) fun o => ?_
  · subst ho
    refine Full.bind (P := fun o => o = .num (s.reverse.headD 0)) (Full.pure ?_) (fun o ho => ?_) fun o => Triple.pure True.intro
    · rw [getItem_one]
    · subst ho
      exact Full.pure rfl
  · exact Triple.bind' (tame_matmul _ _) fun _ => Triple.pure True.intro

theorem full_maximumOf {o : Obj} {v : Val} (h : Rep o v) : Full I (maximumOf o) fun y => Rep y (Naive.maximumVal v) := by
  refine orBlank_rep (full_castRep (vals := [(some .D, v)]) (g := maxG) (.cons ⟨rfl, h⟩ .nil) ?_ ?_)
  · intro os vs r hos hr
    match vs, hos, hr with
    | [.die l p], .cons hd .nil, hr =>
      obtain ⟨d, rfl, hd, _⟩ := hd.die_inv
      cases hr
      refine Full.mono (full_maxBody _) ?_
      rintro _ rfl
      change _ = _
      have : getSeq [Obj.toSrc (.rv d)] = d.vals := by
        rw [C24_contents]
        simp [Obj.toSrc, numbersIn, numbersOf, facesIn, facesOf]
      rw [this, hd.vals_eq, highest_support]
    | [.blank b], .cons hd .nil, hr =>
      cases hd.blank_inv
      cases hr
      refine Full.mono (full_maxBody _) ?_
      rintro _ rfl
      rfl
  · cases v <;> rfl

theorem maximumOf_rep : FnRep I e (fn1 maximumOf) (.lib fun _ l => match l with
    | [d] => some (Naive.maximumVal d)
    | _ => none) := by
  intro os vs x hos hx
  match vs, hos, hx with
  | [v], .cons hd .nil, hx =>
    cases hx
    exact full_maximumOf hd

/-! ## Exploding -/

theorem explodeLaw_pos {l : Law} (h : Pos l) (mx : ℤ) (e : ℕ) : Pos (Naive.explodeLaw l mx e) := by
  induction e with
  | zero => exact h
  | succ e ih =>
    refine h.andThen fun x _ => ?_
    split_ifs
    · exact ih.push _
    · exact pos_sure _

theorem explodeLaw_total {l : Law} (h : (mean l fun _ => 1) = 1) (mx : ℤ) (e : ℕ) : (mean (Naive.explodeLaw l mx e) fun _ => 1) = 1 := by
  induction e with
  | zero => exact h
  | succ e ih =>
    rw [Naive.explodeLaw, mean_andThen]
    refine Eq.trans (mean_congr fun x _ => ?_) h
    split_ifs
    · rw [mean_push, ih]
    · simp

/-- The body of the helper of `explode`. -/
def explG (l : Law) (p : Option (ℕ × Law)) (mx : ℤ) (L : ℤ → Val) : List Val → Option (Option Val)
  | [.num n, .num m, .die l' p'] => if m = mx ∧ l' = l ∧ p' = p then some (some (L n)) else none
  | _ => none

/-- The choices for the helper. -/
theorem explode_choices {l : Law} {p : Option (ℕ × Law)} {mx : ℤ} {L : ℤ → Val} : ∃ cs : List (List Val × ℚ),
    allChoices [(some .N, .die l p), (some .N, .num mx), (some .D, .die l p)] = some cs ∧
    (∀ vs ∈ cs.map Prod.fst, ∃ n : ℤ, vs = [Val.num n, Val.num mx, Val.die l p]) ∧
    Naive.cast (explG l p mx L) [(some .N, .die l p), (some .N, .num mx), (some .D, .die l p)] =
      some (mixed (push (fun vs => (explG l p mx L vs).getD none) cs)) ∧
    ∀ f, (mean cs fun vs => mean (outcomes ((explG l p mx L vs).getD none)) f) = mean l fun n => mean (outcomes (some (L n))) f := by
  set cs := push (fun n : ℤ => [Val.num n, Val.num mx, Val.die l p]) l with hcs
  have hmem : ∀ vs ∈ cs.map Prod.fst, ∃ n : ℤ, vs = [Val.num n, Val.num mx, Val.die l p] := by
    intro vs hvs
    obtain ⟨n, _, rfl⟩ := mem_fst_push.1 hvs
    exact ⟨n, rfl⟩
  have hall : allChoices [(some .N, .die l p), (some .N, .num mx), (some .D, .die l p)] = some cs := by
    simp only [allChoices, choices, convert, Option.bind_eq_bind, Option.bind_some, Option.some.injEq]
    simp only [hcs, andThen, push, sure, List.flatMap_map, List.flatMap_cons, List.flatMap_nil, List.map_cons, List.map_nil, List.append_nil, mul_one]
    rw [← List.map_eq_flatMap]
  have hG : ∀ n, explG l p mx L [.num n, .num mx, .die l p] = some (some (L n)) := fun n => by simp [explG]
  have hcast : Naive.cast (explG l p mx L) [(some .N, .die l p), (some .N, .num mx), (some .D, .die l p)] =
      some (mixed (push (fun vs => (explG l p mx L vs).getD none) cs)) := by
    unfold Naive.cast
    rw [if_neg (by simp [Naive.nothing]), if_pos (by simp [Naive.random]), hall]
    simp only [Option.bind_eq_bind, Option.bind_some]
    rw [callAll_of (G := fun vs => (explG l p mx L vs).getD none)]
    · rfl
    · intro vs hvs
      obtain ⟨n, rfl⟩ := hmem vs hvs
      rw [hG]
      rfl
  refine ⟨cs, hall, hmem, hcast, fun f => ?_⟩
  rw [hcs, mean_push]
  congr 1
  funext n
  rw [hG]
  rfl

theorem explode_cast {F : List Obj → M (Option Obj)} {l m : Law} {p : Option (ℕ × Law)} {mx : ℤ} {L : ℤ → Val} (hm : Pos m)
    (ht : (mean m fun _ => 1) = 1) (hL : ∀ f, (mean l fun n => mean (outcomes (some (L n))) f) = mean m f)
    (hF : ∀ n r, Rep (.rv r) (.die l p) → Full I (F [.num n, .num mx, .rv r]) fun o => RepO o (some (L n)))
    {r : RV ℤ} (h : Rep (.rv r) (.die l p)) :
    Full I (castCall F [(some .N, .rv r), (some .N, .num mx), (some .D, .rv r)]) fun o => Rep (o.getD (.blank false)) (Naive.one m) := by
  obtain ⟨cs, hall, hmem, hcast, hm'⟩ := explode_choices (l := l) (p := p) (mx := mx) (L := L)
  refine Full.mono (full_castRep (vals := [(some .N, .die l p), (some .N, .num mx), (some .D, .die l p)])
    (.cons ⟨rfl, h⟩ (.cons ⟨rfl, rfl⟩ (.cons ⟨rfl, h⟩ .nil))) ?_ hcast) fun o ho => mixed_one hm ht ?_ ho
  · intro os vs x hos hx
    match vs, hos, hx with
    | [.num n, .num m', .die l' p'], .cons h1 (.cons h2 (.cons h3 .nil)), hy =>
      obtain ⟨⟨rfl, rfl, rfl⟩, rfl⟩ : (m' = mx ∧ l' = l ∧ p' = p) ∧ some (L n) = x := by
        simpa [explG] using hy
      obtain ⟨r', rfl, _⟩ := h3.die_inv
      rw [h1.num_inv, h2.num_inv]
      exact hF n r' h3
  · exact fun f => (hm' f).trans (hL f)

/-- What the helper gives for a number. -/
def explStep (l : Law) (mx : ℤ) (e : ℕ) (n : ℤ) : Val := if n = mx then Naive.one (push (n + ·) (Naive.explodeLaw l mx e)) else .num n

theorem full_explodeHelper {l : Law} {p : Option (ℕ × Law)} (mx : ℤ) (e : ℕ) {r : RV ℤ} (h : Rep (.rv r) (.die l p)) :
    Full I (explodeHelper e (.rv r) (.num mx) (.rv r)) fun o => Rep (o.getD (.blank false)) (Naive.one (Naive.explodeLaw l mx e)) := by
  induction e generalizing r with
  | zero =>
    unfold explodeHelper
    refine explode_cast (L := Val.num) h.1.pos h.1.total (fun f => ?_) (fun n r _ => ?_) h
    · simp [outcomes]
    · exact Full.pure rfl
  | succ e ih =>
    unfold explodeHelper
    refine explode_cast (L := explStep l mx e) (explodeLaw_pos h.1.pos mx (e + 1)) (explodeLaw_total h.1.total mx (e + 1)) (fun f => ?_)
      (fun n r hr => ?_) h
    · rw [Naive.explodeLaw, mean_andThen]
      congr 1
      funext n
      unfold explStep
      split_ifs
      · rfl
      · rfl
    · simp only
      unfold explStep
      split_ifs with hn
      · refine Full.bind (ih hr) (fun o ho => ?_) fun o => Triple.bind' (tame_binop _ _ _) fun _ => Triple.pure True.intro
        refine Full.bind (full_binop (op := .add) (by decide) (a := .num n) (u := .num n) rfl ho fun _ _ _ _ => rfl) (fun x hx => Full.pure hx)
          fun _ => Triple.pure True.intro
      · exact Full.pure rfl

/-- The body of `explode`. -/
def explodeG (e : ℕ) : List Val → Option (Option Val)
  | [.die l _] => some (some (Naive.one (Naive.explodeLaw l (Naive.highest (support l)) e)))
  | [.blank _] => some (some (.blank true))
  | _ => none

theorem tame_maximumOf (d : Obj) : Triple I (maximumOf d) fun _ => True := by
  refine Triple.bind' (tame_castCall (fun l => ?_) _) fun _ => Triple.pure True.intro
  unfold maximumOfFn
  split
  · refine Triple.bind' ?_ fun _ => Triple.bind' (tame_matmul _ _) fun _ => Triple.pure True.intro
    refine Triple.bind' (tame_castCall (fun l => ?_) _) fun _ => Triple.pure True.intro
    unfold reverseFn
    split
    · exact Triple.pure True.intro
    · exact Triple.throw
  · exact Triple.throw

theorem full_explodeFn (hI : ∀ st, I st → st.explodeDepth.toNat = e.explode) (os : List Obj) (vs : List Val) (r : Option Val)
    (hos : List.Forall₂ Rep os vs) (hr : explodeG e.explode vs = some r) : Full I (explodeFn none os) fun o => RepO o r := by
  have tame : ∀ d (st : Settings), Triple I (do
      let mx ← maximumOf d
      explodeHelper ((none : Option ℤ).getD st.explodeDepth).toNat d mx d) fun _ => True :=
    fun d st => Triple.bind' (tame_maximumOf d) fun mx => tame_explodeHelper _ _ _ _
  match vs, hos, hr with
  | [.die l p], .cons hd .nil, hr =>
    obtain ⟨d, rfl, _⟩ := hd.die_inv
    cases hr
    refine Full.bind (Full.settings fun st hst => hI st hst) (fun st hst => ?_) fun st => tame _ st
    simp only [Option.getD_none, hst]
    refine Full.bind (full_maximumOf hd) (fun mx hmx => ?_) fun mx => tame_explodeHelper _ _ _ _
    have hmx' : mx = .num (Naive.highest (support l)) := Rep.num_inv hmx
    subst hmx'
    refine Full.mono (full_explodeHelper _ e.explode hd) fun o ho => ?_
    cases o with
    | none => exact absurd ho id
    | some o => exact ho
  | [.blank b], .cons hd .nil, hr =>
    cases hd.blank_inv
    cases hr
    refine Full.bind (Full.settings fun st hst => hI st hst) (fun st hst => ?_) fun st => tame _ st
    refine Full.bind (full_maximumOf hd) (fun mx hmx => ?_) fun mx => tame_explodeHelper _ _ _ _
    have hmx' : mx = .num 0 := Rep.num_inv hmx
    subst hmx'
    generalize ((none : Option ℤ).getD st.explodeDepth).toNat = k
    cases k <;> exact Full.pure rfl

theorem explode_rep (hI : ∀ st, I st → st.explodeDepth.toNat = e.explode) : FnRep I e (fn1 fun d => explode d) (.lib fun t l => match l with
    | [d] => some (Naive.explodeVal t.explode d)
    | _ => none) := by
  intro os vs x hos hx
  match vs, hos, hx with
  | [v], .cons h .nil, hx =>
    cases hx
    refine orBlank_rep (full_castRep (vals := [(some .D, v)]) (g := explodeG e.explode) (.cons ⟨rfl, h⟩ .nil) ?_ ?_)
    · exact full_explodeFn hI
    · cases v <;> rfl

/-- The library, function by function. -/
theorem library_rep (hI : ∀ st, I st → st.positionOrder = order e.low)
    (hE : ∀ st, I st → st.explodeDepth.toNat = e.explode) :
    List.Forall₂ (fun (a : Sig × Spec.Fn) (b : Sig × Naive.Fun) => a.1 = b.1 ∧ FnRep I e a.2 b.2) libraryFns Naive.library := by
  refine .cons ⟨rfl, absolute_rep⟩ (.cons ⟨rfl, contains_rep⟩ (.cons ⟨rfl, countIn_rep⟩ (.cons ⟨rfl, explode_rep hE⟩
    (.cons ⟨rfl, highestN_rep hI⟩ (.cons ⟨rfl, lowestN_rep hI⟩ (.cons ⟨rfl, middleN_rep hI⟩ (.cons ⟨rfl, highestOf_rep⟩
    (.cons ⟨rfl, lowestOf_rep⟩ (.cons ⟨rfl, maximumOf_rep⟩ (.cons ⟨rfl, reverse_rep⟩ (.cons ⟨rfl, sort_rep⟩ (.cons ⟨rfl, ?_⟩ .nil))))))))))))
  intro os vs x _ hx
  cases hx

end Enum
end PythonDice
