import Verif.Proofs.OwnBodies

/-!
# Calls of the functions written in the language that call others
-/

namespace PythonDice.Own

open Spec Spec.Own PythonDice.Compiler

variable {D c : ℤ}

theorem Like.trans_eq {α : Type} {m m' m'' : M α} (h : Like D c m m') (e : m' = m'') : Like D c m m'' := e ▸ h

theorem Like.step {α β : Type} {m : M α} {x : α} {f : α → M β} {m' : M β} (h : Like D c m (Pure.pure x)) (hf : Like D c (f x) m') :
    Like D c (m >>= f) m' := by
  have := Like.bindP (P := fun y => y = x) (f := f) (f' := fun _ => m') h (fun w y hy => by cases hy; rfl) (fun y hy => by subst hy; exact hf)
  rwa [pure_bind] at this

theorem deepless_of {f : List Obj → M (Option Obj)} (h : ∀ l, (∃ o, f l = pure o) ∨ (∃ e, f l = M.throw e)) (l : List Obj) : Deepless (f l) := by
  rcases h l with ⟨o, e⟩ | ⟨x, e⟩ <;> rw [e]
  · exact Deepless.pure _
  · exact Deepless.throw _

theorem keeps_of {f : List Obj → M (Option Obj)} (h : ∀ l, (∃ o, f l = pure o) ∨ (∃ e, f l = M.throw e)) (l : List Obj) : KeepsSettings (f l) := by
  rcases h l with ⟨o, e⟩ | ⟨x, e⟩ <;> rw [e]
  · exact KeepsSettings.pure _
  · exact KeepsSettings.throw _

theorem put_plain (l : List Obj) : (∃ o, putFn l = pure o) ∨ (∃ e, putFn l = M.throw e) := by
  unfold putFn
  split
  · exact .inl ⟨_, rfl⟩
  · exact .inr ⟨_, rfl⟩

theorem put_like (hc : c < D) (R : Rules) (n : ℕ) (fr : Frame) (fns : Fns) (x : ℤ) (s : List ℤ) :
    Like D c (runCall R (n + 1) fr fns putHead putBody [.num x, .seq s]) (pure (.seq (s.orderedInsert (fun a b : ℤ => b ≤ a) x))) := by
  refine (like_call hc (ts := [some .N, some .S]) rfl rfl (f := putFn) (deepless_of put_plain) (keeps_of put_plain) fun os hos => ?_).trans_eq rfl
  match os, hos with
  | [.num a, .seq b], _ =>
    rw [put_body]
    exact Like.refl (keeps_of put_plain _)

theorem loop_like {R : Rules} {call : RunCall} {fns : Fns} {fr : Frame} {x : List Char} {body : Block} {α : Type} (P : α → Frame → Prop) (f : α → ℤ → α)
    (h : ∀ a fr n, P a fr → ∃ fr', P (f a n) fr' ∧ Like D c (runB R call body ⟨fns, fr.set x (.num n)⟩) (pure (⟨fns, fr'⟩, none))) (l : List ℤ) (a : α)
    (hP : P a fr) :
    ∃ fr', P (l.foldl f a) fr' ∧
      Like D c (runLoop (fun (s : State) n => runB R call body { s with fr := s.fr.set x (.num n) }) l ⟨fns, fr⟩) (pure (⟨fns, fr'⟩, none)) := by
  induction l generalizing a fr with
  | nil => exact ⟨fr, hP, Like.pure _⟩
  | cons n l ih =>
    obtain ⟨fr1, h1, h2⟩ := h a fr n hP
    obtain ⟨fr2, h3, h4⟩ := ih (fr := fr1) (f a n) h1
    refine ⟨fr2, h3, ?_⟩
    rw [runLoop]
    exact Like.step h2 h4

theorem insertion_foldl (s : List ℤ) : s.foldl (fun r x => r.orderedInsert (fun a b : ℤ => b ≤ a) x) [] = s.insertionSort fun a b => b ≤ a := by
  rw [← List.foldr_reverse]
  have e : ∀ l : List ℤ, l.foldr (fun x r => r.orderedInsert (fun a b : ℤ => b ≤ a) x) [] = l.insertionSort fun a b => b ≤ a := by
    intro l
    induction l with
    | nil => rfl
    | cons x l ih => rw [List.foldr_cons, ih]; rfl
  rw [e]
  exact List.Perm.eq_of_pairwise (le := fun a b : ℤ => b ≤ a) (fun a b _ _ h1 h2 => le_antisymm h2 h1) (List.pairwise_insertionSort ..) (List.pairwise_insertionSort ..)
    ((List.perm_insertionSort _ _).trans ((List.reverse_perm s).trans (List.perm_insertionSort _ _).symm))

theorem sort_body (hc : c < D) (R : Rules) (n : ℕ) (fns : Fns) (hput : fns.lookup (defSig putHead) = some (.user putHead putBody)) (fr : Frame) (s : List ℤ) :
    Like D c (bodyOf R (runCall R (n + 1)) fns fr sortHead sortBody [.seq s]) (sortFn [.seq s]) := by
  have hS : (enter R fr sortHead sortBody [.seq s]).find "S".toList = some (.seq s) := by
    rcases R with ⟨c, i, l⟩
    cases c <;> rfl
  have hm := mine_enter R fr sortHead sortBody [.seq s]
  unfold bodyOf
  generalize enter R fr sortHead sortBody [.seq s] = fr' at hS hm
  obtain ⟨xs, hxs⟩ : ∃ xs, xs = assignsB sortBody := ⟨_, rfl⟩
  have hR : "R".toList ∈ xs := by rw [hxs]; decide
  have hX : "X".toList ∈ xs := by rw [hxs]; decide
  rw [← hxs] at hm
  unfold sortBody
  rw [b_assign e_nil, b_loop (e_var ((find_set_ne (by decide) _).trans hS))]
  obtain ⟨fr2, ⟨h1, -⟩, h2⟩ := loop_like (D := D) (c := c) (R := R) (call := runCall R (n + 1)) (fns := fns) (x := "X".toList) (body := sortStep)
    (fun (r : List ℤ) (g : Frame) => g.find "R".toList = some (.seq r) ∧ Mine g xs)
    (fun r x => r.orderedInsert (fun a b : ℤ => b ≤ a) x) (fun r g x ⟨g1, g4⟩ => by
      refine ⟨(g.set "X".toList (.num x)).set "R".toList (.seq (r.orderedInsert (fun a b : ℤ => b ≤ a) x)), ⟨find_set (g4.set _ _) hR _, (g4.set _ _).set _ _⟩, ?_⟩
      have i1 := (find_set_ne (x := "X".toList) (by decide) (.num x)).trans g1
      have i5 := find_set g4 hX (.num x)
      generalize g.set "X".toList (.num x) = g' at i1 i5
      have e : runE R (runCall R (n + 1)) fns g' (.call putCall) = runCall R (n + 1) g' fns putHead putBody [.num x, .seq r] := by
        have e1 : getFn fns (callSig putCall) = pure (.user putHead putBody) := by
          rw [show callSig putCall = defSig putHead from rfl, getFn, hput]
        rw [runE, e1, pure_bind]
        unfold putCall
        rw [runArgs, runArgs, runArgs, runArgs, runArgs, runArgs, e_var i5, e_var i1]
        simp only [pure_bind]
        rfl
      unfold sortStep
      rw [runB, runS, e]
      refine Like.step (Like.step (put_like hc R n g' fns x r) (Like.pure _)) ?_
      exact Like.of_eq (b_nil _) (KeepsSettings.pure _))
    s [] (fr := fr'.set "R".toList (.seq []))
    ⟨find_set hm hR _, hm.set _ _⟩
  rw [insertion_foldl] at h1
  refine Like.step (Like.step h2 (m' := pure (⟨fns, fr2⟩, some (.seq (s.insertionSort fun a b => b ≤ a)))) ?_) (Like.pure _)
  exact Like.of_eq (by rw [b_result (e_var h1), pure_bind]) (KeepsSettings.pure _)

theorem combos_last (ss : List Slot) (o : Obj) : combos (ss ++ [.easy o]) = (combos ss).map fun p => (p.1 ++ [o], p.2) := by
  induction ss with
  | nil => rfl
  | cons s ss ih =>
    rw [List.cons_append, combos, combos, ih]
    simp only [List.map_flatMap, List.map_map]
    rfl

theorem forList_map' {α β γ : Type} (g : α → β) (f : β → M γ) (l : List α) : M.forList f (l.map g) = M.forList (fun x => f (g x)) l := by
  induction l with
  | nil => rfl
  | cons x l ih => rw [List.map_cons, M.forList, M.forList, ih]

theorem forList_concat {α β : Type} (f : α → M β) (l : List α) (x : α) :
    M.forList f (l ++ [x]) = M.forList f l >>= fun ys => f x >>= fun y => pure (ys ++ [y]) := by
  induction l with
  | nil =>
    rfl
  | cons a l ih =>
    rw [List.cons_append, M.forList, M.forList, ih]
    simp only [bind_assoc, pure_bind]
    rfl

theorem castCall_last (g : List Obj → M (Option Obj)) (args : List (Option Ty × Obj)) (k : ℤ) :
    castCall (fun os => g os.dropLast) (args ++ [(some .N, .num k)]) = castCall g args := by
  unfold castCall
  have e : (args ++ [((some .N : Option Ty), Obj.num k)]).any castAborts = args.any castAborts := by
    rw [List.any_append]
    simp [castAborts]
  rw [e]
  by_cases h : args.any castAborts = true
  · rw [if_pos h, if_pos h]
  · rw [if_neg h, if_neg h, forList_concat, bind_assoc]
    refine bind_congr fun ss => ?_
    have e1 : castSlot (some .N) (.num k) = pure (.easy (.num k)) := rfl
    rw [e1]
    simp only [pure_bind]
    have e2 : (ss ++ [Slot.easy (.num k)]).any Slot.isHard = ss.any Slot.isHard := by
      rw [List.any_append]
      simp [Slot.isHard]
    rw [e2, combos_last]
    by_cases h2 : ss.any Slot.isHard = true
    · rw [if_pos h2, if_pos h2, forList_map']
      simp only [List.dropLast_concat]
    · rw [if_neg h2, if_neg h2]
      obtain ⟨p, hp⟩ := combos_easy (ss := ss) (by simpa using h2)
      rw [hp]
      simp

/-- What `_explode_helper` does on values of the types of its parameters. -/
def helperFn : ℕ → List Obj → M (Option Obj)
  | 0 => fun
      | [.num n, .num _, _] => pure (some (.num n))
      | _ => M.throw .type
  | depth + 1 => fun
      | [.num n, .num mx, d] =>
        if n = mx then do
          let rest ← explodeHelper depth d (.num mx) d
          return some (← binop .add (.num n) (rest.getD (.blank false)))
        else pure (some (.num n))
      | _ => M.throw .type

theorem explodeHelper_eq (k : ℕ) (n mx d : Obj) : explodeHelper k n mx d = castCall (helperFn k) [(some .N, n), (some .N, mx), (some .D, d)] := by
  cases k <;> rfl

theorem helperFn_deepless (k : ℕ) (l : List Obj) : Deepless (helperFn k l) := by
  cases k with
  | zero =>
    unfold helperFn
    dsimp only
    split
    · exact Deepless.pure _
    · exact Deepless.throw _
  | succ k =>
    unfold helperFn
    dsimp only
    split
    · split
      · exact (Deepless.explodeHelper _ _ _ _).bind fun _ => (Deepless.binop _ _ _).bind fun _ => Deepless.pure _
      · exact Deepless.pure _
    · exact Deepless.throw _

theorem helperFn_keeps (k : ℕ) (l : List Obj) : KeepsSettings (helperFn k l) := by
  cases k with
  | zero =>
    unfold helperFn
    dsimp only
    split
    · exact KeepsSettings.pure _
    · exact KeepsSettings.throw _
  | succ k =>
    unfold helperFn
    dsimp only
    split
    · split
      · exact (KeepsSettings.explodeHelper _ _ _ _).bind fun _ => (KeepsSettings.binop _ _ _).bind fun _ => KeepsSettings.pure _
      · exact KeepsSettings.pure _
    · exact KeepsSettings.throw _

theorem takes_num {o x : Obj} (h : Takes (some .N, o) x) : ∃ n, x = .num n := by
  cases x with
  | num n => exact ⟨n, rfl⟩
  | _ => cases h.1

/-- The body of the helper written in the language, given what a call of it inside does. -/
theorem grow_body (R : Rules) (call : RunCall) (fns : Fns) (hg : fns.lookup (defSig growHead) = some (.user growHead growBody)) (fr : Frame) (x y : ℤ) (d : Obj) (z : ℤ)
    (h : ∀ k, z.toNat = k + 1 → ∀ fr', Like D c (call fr' fns growHead growBody [d, .num y, d, .num (z - 1)]) (orBlank (explodeHelper k d (.num y) d))) :
    Like D c (bodyOf R call fns fr growHead growBody [.num x, .num y, d, .num z]) (helperFn z.toNat [.num x, .num y, d]) := by
  have hN : (enter R fr growHead growBody [.num x, .num y, d, .num z]).find "N".toList = some (.num x) := by
    rcases R with ⟨c, i, l⟩
    cases c <;> rfl
  have hM : (enter R fr growHead growBody [.num x, .num y, d, .num z]).find "M".toList = some (.num y) := by
    rcases R with ⟨c, i, l⟩
    cases c <;> rfl
  have hD : (enter R fr growHead growBody [.num x, .num y, d, .num z]).find "D".toList = some d := by
    rcases R with ⟨c, i, l⟩
    cases c <;> rfl
  have hK : (enter R fr growHead growBody [.num x, .num y, d, .num z]).find "K".toList = some (.num z) := by
    rcases R with ⟨c, i, l⟩
    cases c <;> rfl
  unfold bodyOf
  generalize enter R fr growHead growBody [.num x, .num y, d, .num z] = fr' at hN hM hD hK
  unfold growBody
  rw [b_when ((e_bin .eq (e_var hN) (e_var hM)).trans (bin_eq _ _ _))]
  simp only [bool_zero]
  by_cases h1 : x = y
  · rw [if_neg (not_not.2 h1), b_when ((e_bin .gt (e_var hK) (e_num _)).trans (bin_gt _ _ _))]
    simp only [bool_zero]
    by_cases h2 : z > 0
    · obtain ⟨k, hk⟩ : ∃ k, z.toNat = k + 1 := ⟨z.toNat - 1, by omega⟩
      have e : runE R call fns fr' (.call growCall) = call fr' fns growHead growBody [d, .num y, d, .num (z - 1)] := by
        have e1 : getFn fns (callSig growCall) = pure (.user growHead growBody) := by
          rw [show callSig growCall = defSig growHead from rfl, getFn, hg]
        rw [runE, e1, pure_bind]
        unfold growCall
        rw [runArgs, runArgs, runArgs, runArgs, runArgs, runArgs, runArgs, runArgs, runArgs, runArgs, e_var hD, e_var hM,
          (e_bin .sub (e_var hK) (e_num _)).trans (bin_sub _ _ _)]
        simp only [pure_bind]
        rfl
      rw [if_neg (show ¬¬z > decimal "0".toList from not_not.2 h2), hk]
      have e2 : helperFn (k + 1) [.num x, .num y, d] = orBlank (explodeHelper k d (.num y) d) >>= fun r => binop .add (.num x) r >>= fun o => pure (some o) := by
        unfold helperFn orBlank
        dsimp only
        rw [if_pos h1, bind_assoc]
        simp only [pure_bind]
      have e3 : runE R call fns fr' (.bin .add (v "N") (.call growCall)) =
          call fr' fns growHead growBody [d, .num y, d, .num (z - 1)] >>= fun r => binop .add (.num x) r := by
        rw [runE, e_var hN, e, pure_bind]
        rfl
      rw [b_result e3, e2]
      simp only [bind_assoc, pure_bind]
      exact Like.bind (h k hk fr') fun r => Like.bind (Like.refl (KeepsSettings.binop _ _ _)) fun o => Like.pure _
    · rw [if_pos (show ¬z > decimal "0".toList from h2), b_nil, pure_bind]
      dsimp only
      rw [b_result (e_var hN), show z.toNat = 0 by omega]
      exact Like.pure _
  · rw [if_pos h1, b_result (e_var hN)]
    refine Like.of_eq ?_ (helperFn_keeps _ _)
    cases z.toNat with
    | zero => rfl
    | succ k =>
      unfold helperFn
      dsimp only
      rw [if_neg h1]
      rfl

theorem grow_like (R : Rules) (fns : Fns) (hg : fns.lookup (defSig growHead) = some (.user growHead growBody)) (k : ℕ) :
    ∀ (c : ℤ) (n : ℕ) (fr : Frame) (a mx d : Obj) (z : ℤ), z.toNat = k → c + k < D → k < n →
      Like D c (runCall R n fr fns growHead growBody [a, mx, d, .num z]) (orBlank (explodeHelper k a mx d)) := by
  induction k with
  | zero =>
    intro c n fr a mx d z hz hc hn
    obtain ⟨n, rfl⟩ : ∃ m, n = m + 1 := ⟨n - 1, by omega⟩
    rw [explodeHelper_eq, ← castCall_last _ _ z]
    refine (like_takes (by simpa using hc) (ts := [some .N, some .N, some .D, some .N]) rfl (f := fun os => helperFn 0 os.dropLast) (fun _ => helperFn_deepless _ _)
      (fun _ => helperFn_keeps _ _) fun os hos => ?_)
    match os, hos with
    | [x, y, d', z'], .cons h1 (.cons h2 (.cons h3 (.cons h4 .nil))) =>
      obtain ⟨x, rfl⟩ := takes_num h1
      obtain ⟨y, rfl⟩ := takes_num h2
      cases h4.2 rfl
      have := grow_body (D := D) (c := c + 1) R (runCall R n) fns hg fr x y d' z (fun k hk => by omega)
      rwa [hz] at this
  | succ k ih =>
    intro c n fr a mx d z hz hc hn
    obtain ⟨n, rfl⟩ : ∃ m, n = m + 1 := ⟨n - 1, by omega⟩
    rw [explodeHelper_eq, ← castCall_last _ _ z]
    push_cast at hc
    refine (like_takes (by omega) (ts := [some .N, some .N, some .D, some .N]) rfl (f := fun os => helperFn (k + 1) os.dropLast) (fun _ => helperFn_deepless _ _)
      (fun _ => helperFn_keeps _ _) fun os hos => ?_)
    match os, hos with
    | [x, y, d', z'], .cons h1 (.cons h2 (.cons h3 (.cons h4 .nil))) =>
      obtain ⟨x, rfl⟩ := takes_num h1
      obtain ⟨y, rfl⟩ := takes_num h2
      cases h4.2 rfl
      have := grow_body (D := D) (c := c + 1) R (runCall R n) fns hg fr x y d' z (fun k' hk' fr' => by
        have : k' = k := by omega
        subst this
        exact ih (c + 1) n fr' d' (.num y) d' (z - 1) (by omega) (by omega) (by omega))
      rwa [hz] at this

theorem maximum_keeps (l : List Obj) : KeepsSettings (maximumOfFn l) := by
  unfold maximumOfFn
  split
  · exact (KeepsSettings.reverse _).bind fun _ => (KeepsSettings.matmul _ _).bind fun _ => KeepsSettings.pure _
  · exact KeepsSettings.throw _

theorem maximum_deepless (l : List Obj) : Deepless (maximumOfFn l) := by
  unfold maximumOfFn
  split
  · exact (Deepless.reverse _).bind fun _ => (Deepless.matmul _ _).bind fun _ => Deepless.pure _
  · exact Deepless.throw _

theorem maximum_like (hc : c < D) (R : Rules) (n : ℕ) (fr : Frame) (fns : Fns) (d : Obj) :
    Like D c (runCall R (n + 1) fr fns maximumHead maximumBody [d]) (maximumOf d) := by
  refine like_call hc (ts := [some .D]) rfl rfl (f := maximumOfFn) maximum_deepless maximum_keeps fun os hos => ?_
  match os, hos with
  | [d], _ =>
    rw [maximum_body]
    exact Like.refl (maximum_keeps _)

theorem explodeFn_keeps (k : Option ℤ) (l : List Obj) : KeepsSettings (explodeFn k l) := by
  unfold explodeFn
  split
  · exact KeepsSettings.settings.bind fun _ => (KeepsSettings.maximumOf _).bind fun _ => KeepsSettings.explodeHelper _ _ _ _
  · exact KeepsSettings.throw _

theorem explodeFn_deepless (k : Option ℤ) (l : List Obj) : Deepless (explodeFn k l) := by
  unfold explodeFn
  split
  · exact Deepless.settingsBind (fun _ _ => rfl) fun _ => (Deepless.maximumOf _).bind fun _ => Deepless.explodeHelper _ _ _ _
  · exact Deepless.throw _

theorem orBlank_die (g : List Obj → M (Option Obj)) (d : Obj) :
    orBlank (castCall (fun os => some <$> orBlank (g os)) [(some .D, d)]) = orBlank (castCall g [(some .D, d)]) := by
  have e : ∀ os, orBlank (some <$> orBlank (g os)) = orBlank (g os) := by
    intro os
    unfold orBlank
    simp only [bind_assoc, pure_bind, map_eq_pure_bind]
    rfl
  have e2 : ∀ (f : List Obj → M (Option Obj)) (a : M (RV ℤ)), castSlot (some .D) d = (a >>= fun r => pure (.easy (.rv r))) →
      orBlank (castCall f [(some .D, d)]) = a >>= fun r => orBlank (f [.rv r]) := by
    intro f a ha
    have ha' : ([((some .D : Option Ty), d)].any castAborts) = false := by cases d <;> rfl
    unfold castCall
    rw [ha', if_neg (by decide)]
    simp only [M.forList]
    rw [ha]
    unfold orBlank
    simp only [bind_assoc, pure_bind]
    rfl
  cases d with
  | num n => rw [e2 _ _ rfl, e2 _ _ rfl]; simp only [e]
  | seq s => rw [e2 _ _ rfl, e2 _ _ rfl]; simp only [e]
  | rv r => exact e [.rv r]
  | blank b => exact e [.blank b]

theorem explode_like (R : Rules) (fns : Fns) (hg : fns.lookup (defSig growHead) = some (.user growHead growBody))
    (hx : fns.lookup (defSig maximumHead) = some (.user maximumHead maximumBody)) (c : ℤ) (n : ℕ) (fr : Frame) (d : Obj) (z : ℤ)
    (hc : c + 1 + z.toNat < D) (hn : z.toNat + 1 < n) :
    Like D c (runCall R n fr fns explodeHead explodeBody [d, .num z]) (explode d (some z)) := by
  obtain ⟨n, rfl⟩ : ∃ m, n = m + 1 := ⟨n - 1, by omega⟩
  unfold explode
  rw [← orBlank_die, ← castCall_last _ _ z]
  refine (like_takes (by omega) (ts := [some .D, some .N]) rfl (f := fun os => some <$> orBlank (explodeFn (some z) os.dropLast))
    (fun _ => Deepless.map _ (Deepless.orBlank (explodeFn_deepless _ _)))
    (fun _ => KeepsSettings.map _ (KeepsSettings.orBlank (explodeFn_keeps _ _))) fun os hos => ?_)
  match os, hos with
  | [d', z'], .cons h1 (.cons h2 .nil) =>
    cases h2.2 rfl
    have hD : (enter R fr explodeHead explodeBody [d', .num z]).find "D".toList = some d' := by
      rcases R with ⟨c, i, l⟩
      cases c <;> rfl
    have hK : (enter R fr explodeHead explodeBody [d', .num z]).find "K".toList = some (.num z) := by
      rcases R with ⟨c, i, l⟩
      cases c <;> rfl
    unfold bodyOf
    dsimp only
    generalize enter R fr explodeHead explodeBody [d', .num z] = fr' at hD hK
    unfold explodeBody
    have e : runE R (runCall R n) fns fr' (.call explodeCall) = runCall R n fr' fns maximumHead maximumBody [d'] >>= fun m =>
        runCall R n fr' fns growHead growBody [d', m, d', .num z] := by
      have e1 : getFn fns (callSig explodeCall) = pure (.user growHead growBody) := by
        rw [show callSig explodeCall = defSig growHead from rfl, getFn, hg]
      have e2 : getFn fns (callSig maximumCall) = pure (.user maximumHead maximumBody) := by
        rw [show callSig maximumCall = defSig maximumHead from rfl, getFn, hx]
      have e4 : runE R (runCall R n) fns fr' (.call maximumCall) = runCall R n fr' fns maximumHead maximumBody [d'] := by
        rw [runE, e2, pure_bind]
        unfold maximumCall
        rw [runArgs, runArgs, runArgs, runArgs, runArgs, e_var hD]
        simp only [pure_bind]
        rfl
      rw [runE, e1, pure_bind]
      unfold explodeCall
      rw [runArgs, runArgs, runArgs, runArgs, runArgs, runArgs, runArgs, runArgs, runArgs, runArgs, e4, e_var hD, e_var hK]
      simp only [pure_bind, bind_assoc]
      rfl
    have e3 : some <$> orBlank (explodeFn (some z) [d']) = maximumOf d' >>= fun m => orBlank (explodeHelper z.toNat d' m d') >>= fun o => pure (some o) := by
      have : explodeFn (some z) [d'] = maximumOf d' >>= fun mx => explodeHelper z.toNat d' mx d' := rfl
      rw [this]
      unfold orBlank
      simp only [bind_assoc, pure_bind, map_eq_pure_bind]
    rw [b_result e, show [d', Obj.num z].dropLast = [d'] from rfl, e3]
    simp only [bind_assoc, pure_bind]
    obtain ⟨n, rfl⟩ : ∃ m, n = m + 1 := ⟨n - 1, by omega⟩
    exact Like.bind (maximum_like (by omega) R n fr' fns d') fun m =>
      Like.bind (grow_like R fns hg z.toNat (c + 1) (n + 1) fr' d' m d' z rfl (by omega) (by omega)) fun o => Like.pure _

end PythonDice.Own
