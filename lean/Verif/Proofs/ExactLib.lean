import Verif.Proofs.NaiveLib
import Verif.Proofs.Exact

/-! The library functions neither warn nor overflow, because the laws have small denominators. -/

namespace PythonDice
open Spec
open Spec.Naive (Law Val mean sure push andThen uniform draws support nothing random convert choices allChoices outcomes mixed callAll
  Over Exact ExactVal ExactLib)

namespace Enum

/-- Functions that neither warn nor overflow, in these settings. -/
def FnSafe (I : Settings → Prop) (e : Naive.Table) : Spec.Fn → Naive.Fun → Prop
  | .lib f, .lib g => ∀ os vs x, List.Forall₂ Rep os vs → g e vs = some x → ExactLib g e vs → Safe I (f os)
  | _, _ => True

variable {I : Settings → Prop} {e : Naive.Table}

theorem safe_orBlank {m : M (Option Obj)} (h : Safe I m) : Safe I (orBlank m) := h.then fun _ => Plain.pure _

theorem lib1_safe {t : Ty} {F : List Obj → M (Option Obj)} {f : Val → Option Val}
    (h : ∀ o v x, Rep o v → f v = some x → Full I (F [o]) fun y => RepO y (some x)) (hF : ∀ os, Plain (F os)) :
    FnSafe I e (fn1 fun a => orBlank (castCall F [(some t, a)])) (Naive.lib1 t f) := by
  intro os vs x hos hx hE
  match vs, hos, hx with
  | [v], .cons hd .nil, hx =>
    refine safe_orBlank (safe_castRep (vals := [(some t, v)]) (.cons ⟨rfl, hd⟩ .nil) ?_ hx
      (fun _ _ _ _ _ _ os _ => (hF os).safe) (fun _ _ os _ => (hF os).safe) fun _ _ => hE.1 e.explode le_rfl x hx)
    intro os vs r hos hr
    match vs, hos, hr with
    | [u], .cons hd .nil, hr =>
      simp only [Option.map_eq_some_iff] at hr
      obtain ⟨x, hx, rfl⟩ := hr
      exact h _ _ _ hd hx

theorem lib2_safe {t t' : Ty} {F : List Obj → M (Option Obj)} {f : Val → Val → Option Val}
    (h : ∀ o o' v v' x, Rep o v → Rep o' v' → f v v' = some x → Full I (F [o, o']) fun y => RepO y (some x)) (hF : ∀ os, Plain (F os)) :
    FnSafe I e (fn2 fun a b => orBlank (castCall F [(some t, a), (some t', b)])) (Naive.lib2 t t' f) := by
  intro os vs x hos hx hE
  match vs, hos, hx with
  | [v, v'], .cons hd (.cons hd' .nil), hx =>
    refine safe_orBlank (safe_castRep (vals := [(some t, v), (some t', v')]) (.cons ⟨rfl, hd⟩ (.cons ⟨rfl, hd'⟩ .nil)) ?_ hx
      (fun _ _ _ _ _ _ os _ => (hF os).safe) (fun _ _ os _ => (hF os).safe) fun _ _ => hE.1 e.explode le_rfl x hx)
    intro os vs r hos hr
    match vs, hos, hr with
    | [u, u'], .cons hd (.cons hd' .nil), hr =>
      simp only [Option.map_eq_some_iff] at hr
      obtain ⟨x, hx, rfl⟩ := hr
      exact h _ _ _ _ _ hd hd' hx

theorem choices_num {a : Val} {n : Val} {c : List (Val × ℚ)} (hc : choices (some .N, a) = some c) (hn : n ∈ c.map Prod.fst)
    (h0 : nothing (some .N, a) = false) : ∃ k ∈ Naive.amounts a, n = .num k := by
  cases a with
  | num k => cases hc; exact ⟨k, by simp [Naive.amounts], by simpa [sure, convert] using hn⟩
  | seq s => cases hc; exact ⟨s.sum, by simp [Naive.amounts], by simpa [sure, convert] using hn⟩
  | die l p =>
    simp only [choices, Option.some.injEq] at hc
    subst hc
    obtain ⟨k, hk, rfl⟩ := mem_fst_push.1 hn
    exact ⟨k, hk, rfl⟩
  | blank b => simp [nothing] at h0

theorem convert_num {a : Val} (h0 : nothing (some .N, a) = false) (h1 : random (some .N, a) = false) :
    ∃ k ∈ Naive.amounts a, convert (some .N, a) = .num k := by
  cases a with
  | num k => exact ⟨k, by simp [Naive.amounts], rfl⟩
  | seq s => exact ⟨s.sum, by simp [Naive.amounts], rfl⟩
  | die l p => simp [random] at h1
  | blank b => simp [nothing] at h0

theorem libSel_safe {F : List Obj → M (Option Obj)} {f : Bool → Val → Val → Option Val}
    (h : ∀ o o' v v' x, Rep o v → Rep o' v' → f e.low v v' = some x → Full I (F [o, o']) fun y => RepO y (some x))
    (hF : ∀ n o' v' x, Rep o' v' → f e.low (.num n) v' = some x → ExactVal x → Safe I (F [.num n, o'])) :
    FnSafe I e (fn2 fun a b => orBlank (castCall F [(some .N, a), (some .D, b)])) (Naive.libSel f) := by
  intro os vs x hos hx hE
  match vs, hos, hx with
  | [v, v'], .cons hd (.cons hd' .nil), hx =>
    have key : ∀ n ∈ Naive.amounts v, nothing (some .N, v) = false → nothing (some .D, v') = false →
        ∀ os, List.Forall₂ Rep os [.num n, convert (some .D, v')] → (f e.low (.num n) (convert (some .D, v'))).isSome → Safe I (F os) := by
      intro n hn h0 h0' os hos hf
      obtain ⟨y, hy⟩ := Option.isSome_iff_exists.1 hf
      cases hos with
      | cons h1 hos =>
        cases hos with
        | cons h2 hos =>
          cases hos
          rw [h1.num_inv]
          refine hF n _ _ y h2 hy (hE.2 v [v'] rfl n hn y ?_)
          change Naive.cast _ _ = _
          unfold Naive.cast
          rw [if_neg (by simp only [List.any_cons, List.any_nil, Bool.or_false, h0']; simp [nothing]), if_neg (by simp [random])]
          simp only [List.map_cons, List.map_nil]
          have e1 : convert (some .N, Val.num n) = .num n := rfl
          rw [e1, hy]
          rfl
    have hdef := hx
    change Naive.cast _ _ = _ at hdef
    unfold Naive.cast at hdef
    refine safe_orBlank (safe_castRep (vals := [(some .N, v), (some .D, v')]) (.cons ⟨rfl, hd⟩ (.cons ⟨rfl, hd'⟩ .nil)) ?_ hx
      (fun h0 hr cs hcs y hy os hos => ?_) (fun h0 hr os hos => ?_) fun _ _ => hE.1 e.explode le_rfl x hx)
    · intro os vs r hos hr
      match vs, hos, hr with
      | [u, u'], .cons hd (.cons hd' .nil), hr =>
        simp only [Option.map_eq_some_iff] at hr
        obtain ⟨x, hx, rfl⟩ := hr
        exact h _ _ _ _ _ hd hd' hx
    · rw [if_neg (by rw [h0]; simp), if_pos hr] at hdef
      simp only [Option.bind_eq_bind, Option.bind_eq_some_iff, Option.some.injEq] at hdef
      obtain ⟨cs', hcs', rs, hrs, _⟩ := hdef
      rw [hcs] at hcs'
      cases hcs'
      have e2 := (callAll_some hrs).2 y.1 (List.mem_map_of_mem hy)
      simp only [allChoices, Option.bind_eq_bind, Option.bind_eq_some_iff, Option.some.injEq] at hcs
      obtain ⟨c, hc, _, ⟨c', hc', _, rfl, rfl⟩, rfl⟩ := hcs
      simp only [List.any_cons, List.any_nil, Bool.or_false, Bool.or_eq_false_iff] at h0
      have hD : choices (some .D, v') = some (sure (convert (some .D, v'))) := by cases v' <;> rfl
      rw [hD] at hc'
      cases hc'
      obtain ⟨n0, hn0, hy'⟩ := mem_fst_andThen.1 (List.mem_map_of_mem (f := Prod.fst) hy)
      obtain ⟨k, hk, rfl⟩ := choices_num hc hn0 h0.1
      have e3 : y.1 = [.num k, convert (some .D, v')] := by
        obtain ⟨r, hr, e⟩ := mem_fst_push.1 hy'
        obtain ⟨u, hu, hr⟩ := mem_fst_andThen.1 hr
        obtain ⟨t, ht, hr⟩ := mem_fst_push.1 hr
        simp only [sure, List.map_cons, List.map_nil, List.mem_singleton] at hu ht
        subst hu; subst ht
        rw [← e, ← hr]
      rw [e3] at hos e2
      refine key k hk h0.1 h0.2 os hos ?_
      cases hf : f e.low (.num k) (convert (some .D, v')) with
      | none => simp only [hf] at e2; cases e2
      | some _ => rfl
    · rw [if_neg (by rw [h0]; simp), if_neg (by rw [hr]; simp)] at hdef
      simp only [List.any_cons, List.any_nil, Bool.or_false, Bool.or_eq_false_iff] at h0 hr
      obtain ⟨k, hk, e1⟩ := convert_num h0.1 hr.1
      simp only [List.map_cons, List.map_nil, e1] at hos hdef
      refine key k hk h0.1 h0.2 os hos ?_
      cases hf : f e.low (.num k) (convert (some .D, v')) with
      | none => rw [hf] at hdef; cases hdef
      | some _ => rfl

section
variable (hI : ∀ st, I st → st.positionOrder = order e.low)
include hI

theorem highestN_safe : FnSafe I e (fn2 highestN) (Naive.libSel Naive.highestVal) := by
  refine libSel_safe (fun o o' v v' x h h' hx => ?_) fun n o' v' x h' hx hE => ?_
  · cases v <;> simp only [Naive.highestVal, reduceCtorEq] at hx
    rw [h.num_inv]
    exact Full.map (full_matmul hI (a := .seq _) (u := .seq _) rfl h' hx (fun _ _ e => by cases e)) fun _ hy => hy
  · exact Safe.map _ (safe_matmul hI (a := .seq _) (u := .seq _) rfl h' hx hE)

theorem lowestN_safe : FnSafe I e (fn2 lowestN) (Naive.libSel Naive.lowestVal) := by
  refine libSel_safe (fun o o' v v' x h h' hx => ?_) fun n o' v' x h' hx hE => ?_
  · cases v <;> simp only [Naive.lowestVal, Option.bind_eq_bind, Option.bind_eq_some_iff, reduceCtorEq] at hx
    obtain ⟨k, hk, hx⟩ := hx
    rw [h.num_inv]
    rename_i n
    change Full I (some <$> matmul (.seq (pyRange ((myLen o' : ℤ) - n + 1) ((myLen o' : ℤ) + 1))) o') _
    rw [myLen_size h' hk]
    exact Full.map (full_matmul hI (a := .seq _) (u := .seq _) rfl h' hx (fun _ _ e => by cases e)) fun _ hy => hy
  · simp only [Naive.lowestVal, Option.bind_eq_bind, Option.bind_eq_some_iff] at hx
    obtain ⟨k, hk, hx⟩ := hx
    change Safe I (some <$> matmul (.seq (pyRange ((myLen o' : ℤ) - n + 1) ((myLen o' : ℤ) + 1))) o')
    rw [myLen_size h' hk]
    exact Safe.map _ (safe_matmul hI (a := .seq _) (u := .seq _) rfl h' hx hE)

theorem middleN_safe : FnSafe I e (fn2 middleN) (Naive.libSel Naive.middleVal) := by
  refine libSel_safe (fun o o' v v' x h h' hx => ?_) fun n o' v' x h' hx hE => ?_
  · cases v <;> simp only [Naive.middleVal, Option.bind_eq_bind, Option.bind_eq_some_iff, reduceCtorEq] at hx
    obtain ⟨k, hk, hx⟩ := hx
    rw [h.num_inv]
    rename_i n
    have e := myLen_size h' hk
    simp only [middleNFn, e]
    by_cases h1 : n = (k : ℤ)
    · rw [if_pos h1] at hx ⊢
      cases hx
      exact Full.pure h'
    · rw [if_neg h1] at hx ⊢
      by_cases h2 : n = 1
      · rw [if_pos h2] at hx ⊢
        exact Full.map (full_matmul hI (a := .num _) (u := .num _) rfl h' hx (fun _ _ e e' => by subst e'; cases hx)) fun _ hy => hy
      · rw [if_neg h2] at hx ⊢
        refine Full.map (full_matmul hI (a := .seq _) ?_ h' hx (fun _ _ e => by cases e)) fun _ hy => hy
        change pyRange _ _ = pyRange _ _
        congr 1
        ring
  · simp only [Naive.middleVal, Option.bind_eq_bind, Option.bind_eq_some_iff] at hx
    obtain ⟨k, hk, hx⟩ := hx
    have e := myLen_size h' hk
    simp only [middleNFn, e]
    by_cases h1 : n = (k : ℤ)
    · rw [if_pos h1]
      exact safe_pure _
    · rw [if_neg h1] at hx ⊢
      by_cases h2 : n = 1
      · rw [if_pos h2] at hx ⊢
        exact Safe.map _ (safe_matmul hI (a := .num _) (u := .num _) rfl h' hx hE)
      · rw [if_neg h2] at hx ⊢
        refine Safe.map _ (safe_matmul hI (a := .seq _) ?_ h' hx hE)
        change pyRange _ _ = pyRange _ _
        congr 1
        ring
end

/-! ## Exploding -/

theorem safe_maximumOf {o : Obj} {v : Val} (h : Rep o v) : Safe I (maximumOf o) := by
  have body : ∀ os, Safe I (maximumOfFn os) := by
    intro os
    unfold maximumOfFn
    split
    · rename_i d
      generalize getSeq [d.toSrc] = s
      have e : reverse (.seq s) = pure (.seq s.reverse) := by
        unfold reverse
        rw [C15_no_dice _ _ (by simp [castAborts]) (by simp [IsRandom])]
        rfl
      rw [e]
      exact safe_pure _
    · exact (Plain.throw (fun h => by cases h)).safe
  refine safe_orBlank (safe_castRep (vals := [(some .D, v)]) (g := maxG) (v := Naive.maximumVal v) (.cons ⟨rfl, h⟩ .nil) ?_ ?_
    (fun _ _ _ _ _ _ os _ => body os) (fun _ _ os _ => body os) fun _ _ => ?_)
  · intro os vs r hos hr
    match vs, hos, hr with
    | [.die l p], .cons hd .nil, hr =>
      obtain ⟨d, rfl, hd, _⟩ := hd.die_inv
      cases hr
      refine Full.mono (full_maxBody _) ?_
      rintro _ rfl
      change _ = _
      have : getSeq [Obj.toSrc (.rv d)] = d.vals := by
        rw [C24_contents]
        simp [Obj.toSrc, numbersIn, numbersOf, facesIn, facesOf]
      rw [this, hd.vals_eq, highest_support]
    | [.blank b], .cons hd .nil, hr =>
      cases hd.blank_inv
      cases hr
      refine Full.mono (full_maxBody _) ?_
      rintro _ rfl
      rfl
  · cases v <;> rfl
  · unfold Naive.maximumVal
    split <;> trivial

theorem safe_explode_cast {F : List Obj → M (Option Obj)} {l m : Law} {p : Option (ℕ × Law)} {mx : ℤ} {L : ℤ → Val}
    (ht : (mean m fun _ => 1) = 1) (hL : ∀ f, (mean l fun n => mean (outcomes (some (L n))) f) = mean m f)
    (hF : ∀ n r, Rep (.rv r) (.die l p) → Full I (F [.num n, .num mx, .rv r]) fun o => RepO o (some (L n)))
    (hS : ∀ n r, Rep (.rv r) (.die l p) → Safe I (F [.num n, .num mx, .rv r])) (hE : Exact m)
    {r : RV ℤ} (h : Rep (.rv r) (.die l p)) :
    Safe I (castCall F [(some .N, .rv r), (some .N, .num mx), (some .D, .rv r)]) := by
  obtain ⟨cs, hall, hmem, hcast, hm⟩ := explode_choices (l := l) (p := p) (mx := mx) (L := L)
  refine safe_castRep (vals := [(some .N, .die l p), (some .N, .num mx), (some .D, .die l p)])
    (.cons ⟨rfl, h⟩ (.cons ⟨rfl, rfl⟩ (.cons ⟨rfl, h⟩ .nil))) ?_ hcast ?_ ?_ ?_
  · intro os vs x hos hx
    match vs, hos, hx with
    | [.num n, .num m', .die l' p'], .cons h1 (.cons h2 (.cons h3 .nil)), hy =>
      obtain ⟨⟨rfl, rfl, rfl⟩, rfl⟩ : (m' = mx ∧ l' = l ∧ p' = p) ∧ some (L n) = x := by
        simpa [explG] using hy
      obtain ⟨r', rfl, _⟩ := h3.die_inv
      rw [h1.num_inv, h2.num_inv]
      exact hF n r' h3
  · intro _ _ cs' hcs' x hx os hos
    rw [hall] at hcs'
    cases hcs'
    obtain ⟨n, e⟩ := hmem x.1 (List.mem_map_of_mem hx)
    rw [e] at hos
    match os, hos with
    | [_, _, _], .cons h1 (.cons h2 (.cons h3 .nil)) =>
      obtain ⟨r', rfl, _⟩ := h3.die_inv
      rw [h1.num_inv, h2.num_inv]
      exact hS n r' h3
  · intro _ hr
    simp [random] at hr
  · intro _ _
    exact mixed_exact ht (fun f => (hm f).trans (hL f)) hE

theorem safe_explodeHelper {l : Law} {p : Option (ℕ × Law)} (mx : ℤ) (e : ℕ) (hE : ∀ k ≤ e, Exact (Naive.explodeLaw l mx k)) {r : RV ℤ}
    (h : Rep (.rv r) (.die l p)) : Safe I (explodeHelper e (.rv r) (.num mx) (.rv r)) := by
  induction e generalizing r with
  | zero =>
    unfold explodeHelper
    refine safe_explode_cast (L := Val.num) h.1.total (fun f => ?_) (fun n r _ => ?_) (fun n r _ => ?_) (hE 0 le_rfl) h
    · simp [outcomes]
    · exact Full.pure rfl
    · exact safe_pure _
  | succ e ih =>
    have ih := fun {r : RV ℤ} (h : Rep (.rv r) (.die l p)) => ih (fun k hk => hE k (by omega)) h
    unfold explodeHelper
    refine safe_explode_cast (L := explStep l mx e) (explodeLaw_total h.1.total mx (e + 1)) (fun f => ?_)
      (fun n r hr => ?_) (fun n r hr => ?_) (hE (e + 1) le_rfl) h
    · rw [Naive.explodeLaw, mean_andThen]
      congr 1
      funext n
      unfold explStep
      split_ifs
      · rfl
      · rfl
    · simp only
      unfold explStep
      split_ifs with hn
      · refine Full.bind (full_explodeHelper mx e hr) (fun o ho => ?_) fun o => Triple.bind' (tame_binop _ _ _) fun _ => Triple.pure True.intro
        refine Full.bind (full_binop (op := .add) (by decide) (a := .num n) (u := .num n) rfl ho fun _ _ _ _ => rfl) (fun x hx => Full.pure hx)
          fun _ => Triple.pure True.intro
      · exact Full.pure rfl
    · simp only
      split_ifs with hn
      · exact (ih hr).then fun o => (plain_binop _ fun r q e => by cases e.1).bind fun _ => Plain.pure _
      · exact safe_pure _

theorem explode_safe (hI : ∀ st, I st → st.explodeDepth.toNat = e.explode) : FnSafe I e (fn1 fun d => explode d) (.lib fun t l => match l with
    | [d] => some (Naive.explodeVal t.explode d)
    | _ => none) := by
  intro os vs x hos hx hE
  match vs, hos, hx with
  | [v], .cons h .nil, hx =>
    cases hx
    have hE' : ∀ k ≤ e.explode, ExactVal (Naive.explodeVal k v) := fun k hk => hE.1 k hk _ rfl
    refine safe_orBlank (safe_castRep (vals := [(some .D, v)]) (g := explodeG e.explode) (v := Naive.explodeVal e.explode v) (.cons ⟨rfl, h⟩ .nil)
      ?_ ?_ ?_ ?_ fun _ _ => hE' _ le_rfl)
    · exact full_explodeFn hI
    · cases v <;> rfl
    · intro _ hr
      exfalso
      cases v <;> simp [random] at hr
    · intro _ _ os hos
      unfold Naive.explodeVal at hE'
      simp only [List.map_cons, List.map_nil] at hos
      have hV : (∃ l p, convert (some .D, v) = .die l p) ∨ ∃ b, convert (some .D, v) = .blank b := by
        cases v <;> first | exact .inl ⟨_, _, rfl⟩ | exact .inr ⟨_, rfl⟩
      rcases hV with ⟨l, p, hV⟩ | ⟨b, hV⟩
      · rw [hV] at hos hE'
        match os, hos with
        | [_], .cons hd .nil =>
          obtain ⟨d, rfl, _⟩ := hd.die_inv
          refine Safe.bind (Plain.safe fun w => ⟨rfl, fun h => by cases h⟩) (Full.settings fun st hst => hI st hst).1 fun st hst => ?_
          simp only [Option.getD_none, hst]
          refine Safe.bind (safe_maximumOf hd) (full_maximumOf hd).1 fun mx hmx => ?_
          have hmx' : mx = .num (Naive.highest (support l)) := Rep.num_inv hmx
          subst hmx'
          exact safe_explodeHelper _ e.explode hE' hd
      · rw [hV] at hos
        match os, hos with
        | [_], .cons hd .nil =>
          cases hd.blank_inv
          refine Safe.bind (Plain.safe fun w => ⟨rfl, fun h => by cases h⟩) (Full.settings fun st hst => hI st hst).1 fun st hst => ?_
          refine Safe.bind (safe_maximumOf hd) (full_maximumOf hd).1 fun mx hmx => ?_
          have hmx' : mx = .num 0 := Rep.num_inv hmx
          subst hmx'
          generalize ((none : Option ℤ).getD st.explodeDepth).toNat = k
          cases k <;> exact safe_pure _

/-- The library, function by function. -/
theorem library_safe (hI : ∀ st, I st → st.positionOrder = order e.low)
    (hE : ∀ st, I st → st.explodeDepth.toNat = e.explode) :
    List.Forall₂ (fun (a : Sig × Spec.Fn) (b : Sig × Naive.Fun) => FnSafe I e a.2 b.2) libraryFns Naive.library := by
  have plain : ∀ {m : M (Option Obj)}, m = M.throw .type → Plain m := fun h => h ▸ Plain.throw (fun h => by cases h)
  refine .cons (lib1_safe absolute_body fun os => ?_) (.cons (lib2_safe contains_body fun os => ?_) (.cons (lib2_safe countIn_body fun os => ?_)
    (.cons (explode_safe hE)
    (.cons (highestN_safe hI) (.cons (lowestN_safe hI) (.cons (middleN_safe hI) (.cons (lib2_safe highestOf_body fun os => ?_)
    (.cons (lib2_safe lowestOf_body fun os => ?_) (.cons ?_ (.cons (lib1_safe reverse_body fun os => ?_) (.cons (lib1_safe sort_body fun os => ?_)
    (.cons ?_ .nil))))))))))))
  · unfold absoluteFn; split <;> first | exact Plain.pure _ | exact plain rfl
  · unfold containsFn; split <;> first | exact Plain.pure _ | exact plain rfl
  · unfold countInFn; split <;> first | exact Plain.pure _ | exact plain rfl
  · unfold highestOfFn; split <;> first | exact Plain.pure _ | exact plain rfl
  · unfold lowestOfFn; split <;> first | exact Plain.pure _ | exact plain rfl
  · intro os vs x hos hx _
    match vs, hos, hx with
    | [v], .cons hd .nil, hx => exact safe_maximumOf hd
  · unfold reverseFn; split <;> first | exact Plain.pure _ | exact plain rfl
  · unfold sortFn; split <;> first | exact Plain.pure _ | exact plain rfl
  · intro os vs x _ hx
    cases hx

end Enum
end PythonDice
