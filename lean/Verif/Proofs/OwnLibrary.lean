import Verif.Spec.OwnLibrary
import Verif.Spec.Inline
import Verif.Proofs.Deepless
import Verif.Proofs.Quiet
import Verif.Proofs.Sequel

/-!
# Calls of functions written in the language, and calls of the library
-/

namespace PythonDice.Own

open Spec Spec.Own PythonDice.Compiler

/-- From all states with this maximal and current depth both computations give the same, and if they do not fail leave the same state, with the same depths. -/
def Like {α : Type} (D c : ℤ) (m m' : M α) : Prop := ∀ w : World, w.settings.maxFuncDepth = D → w.settings.currDepth = c →
  (m w).1 = (m' w).1 ∧ ∀ x, (m' w).1 = .ok x → (m w).2 = (m' w).2 ∧ (m' w).2.settings.maxFuncDepth = D ∧ (m' w).2.settings.currDepth = c

namespace Like
variable {α β : Type} {D c : ℤ}

theorem refl {m : M α} (h : KeepsSettings m) : Like D c m m := fun w h1 h2 =>
  ⟨rfl, fun _ _ => ⟨rfl, by rw [h w, h1], by rw [h w, h2]⟩⟩

theorem of_eq {m m' : M α} (e : m = m') (h : KeepsSettings m') : Like D c m m' := by
  subst e
  exact refl h

theorem bindP {m m' : M α} {f f' : α → M β} {P : α → Prop} (hm : Like D c m m') (hP : ∀ w x, (m' w).1 = .ok x → P x)
    (hf : ∀ x, P x → Like D c (f x) (f' x)) : Like D c (m >>= f) (m' >>= f') := by
  intro w h1 h2
  obtain ⟨e1, e2⟩ := hm w h1 h2
  have hp := hP w
  show (M.bind m f w).1 = (M.bind m' f' w).1 ∧ ∀ x, (M.bind m' f' w).1 = .ok x → (M.bind m f w).2 = (M.bind m' f' w).2 ∧
    (M.bind m' f' w).2.settings.maxFuncDepth = D ∧ (M.bind m' f' w).2.settings.currDepth = c
  unfold M.bind
  rcases hr : m w with ⟨r, v⟩
  rcases hr' : m' w with ⟨r', v'⟩
  rw [hr, hr'] at e1 e2
  rw [hr'] at hp
  dsimp only at e1 e2 hp
  subst e1
  cases r with
  | error e => exact ⟨rfl, fun x hx => (by cases hx)⟩
  | ok x =>
    obtain ⟨e3, e4, e5⟩ := e2 x rfl
    subst e3
    exact hf x (hp x rfl) v e4 e5

theorem bind {m m' : M α} {f f' : α → M β} (hm : Like D c m m') (hf : ∀ x, Like D c (f x) (f' x)) : Like D c (m >>= f) (m' >>= f') :=
  bindP (P := fun _ => True) hm (fun _ _ _ => trivial) fun x _ => hf x

theorem pure (x : α) : Like D c (Pure.pure x : M α) (Pure.pure x) := refl (KeepsSettings.pure x)

theorem forList {f f' : α → M β} {l : List α} (h : ∀ x ∈ l, Like D c (f x) (f' x)) : Like D c (M.forList f l) (M.forList f' l) := by
  induction l with
  | nil => exact pure []
  | cons x l ih =>
    exact (h x (List.mem_cons_self ..)).bind fun y => (ih fun z hz => h z (List.mem_cons_of_mem _ hz)).bind fun ys => pure _

end Like

/-- A value that an argument takes: it has the type of the parameter, and is the argument if the argument has that type. -/
def Takes (a : Option Ty × Obj) (x : Obj) : Prop := fits a.1 x = true ∧ (fits a.1 a.2 = true → x = a.2)

theorem castSlot_fits {t : Option Ty} {o : Obj} (ha : castAborts (t, o) = false) {w : World} {s : Slot} (h : (castSlot t o w).1 = .ok s) :
    ∀ p ∈ s.choices, Takes (t, o) p.1 := by
  rcases t with _ | (_ | _ | _) <;> cases o <;> first
    | (cases ha; done)
    | (cases h; intro p hp; rw [Slot.choices, List.mem_singleton] at hp; subst hp; exact ⟨rfl, fun h => (by first | rfl | cases h)⟩)
    | (cases h
       intro p hp
       obtain ⟨q, -, rfl⟩ := List.mem_map.1 hp
       exact ⟨rfl, fun h => (by cases h)⟩)
    | skip
  · rename_i n
    have e : castSlot (some .D) (.num n) w = M.bind (M.ofSettings fun st => RV.fromConst st n) (fun r => Pure.pure (Slot.easy (.rv r))) w := rfl
    rw [e] at h
    unfold M.bind M.ofSettings at h
    dsimp only at h
    rcases hr : RV.fromConst w.settings n with e | r
    · rw [hr] at h; cases h
    · rw [hr] at h
      cases h
      intro p hp
      rw [Slot.choices, List.mem_singleton] at hp
      subst hp
      exact ⟨rfl, fun h => (by cases h)⟩
  · rename_i l
    have e : castSlot (some .D) (.seq l) w = M.bind (M.ofSettings fun st => RV.fromSeq st l) (fun r => Pure.pure (Slot.easy (.rv r))) w := rfl
    rw [e] at h
    unfold M.bind M.ofSettings at h
    dsimp only at h
    rcases hr : RV.fromSeq w.settings l with e | r
    · rw [hr] at h; cases h
    · rw [hr] at h
      cases h
      intro p hp
      rw [Slot.choices, List.mem_singleton] at hp
      subst hp
      exact ⟨rfl, fun h => (by cases h)⟩

theorem castSlots_fits (args : List (Option Ty × Obj)) (ha : args.any castAborts = false) (w : World) (ss : List Slot)
    (h : (M.forList (fun a : Option Ty × Obj => castSlot a.1 a.2) args w).1 = .ok ss) :
    List.Forall₂ (fun (a : Option Ty × Obj) (s : Slot) => ∀ p ∈ s.choices, Takes a p.1) args ss := by
  induction args generalizing w ss with
  | nil => cases h; exact .nil
  | cons a args ih =>
    rw [List.any_cons, Bool.or_eq_false_iff] at ha
    have e : M.forList (fun a : Option Ty × Obj => castSlot a.1 a.2) (a :: args) w =
      M.bind (castSlot a.1 a.2) (fun y => M.bind (M.forList (fun a : Option Ty × Obj => castSlot a.1 a.2) args) fun ys => Pure.pure (y :: ys)) w := rfl
    rw [e] at h
    unfold M.bind at h
    rcases h1 : castSlot a.1 a.2 w with ⟨r, v⟩
    rw [h1] at h
    cases r with
    | error e => cases h
    | ok s =>
      dsimp only at h
      rcases h2 : M.forList (fun a : Option Ty × Obj => castSlot a.1 a.2) args v with ⟨r', u⟩
      rw [h2] at h
      cases r' with
      | error e => cases h
      | ok ss' =>
        cases h
        exact .cons (castSlot_fits ha.1 (by rw [h1])) (ih ha.2 v ss' (by rw [h2]))

theorem combos_fits {args : List (Option Ty × Obj)} {ss : List Slot}
    (h : List.Forall₂ (fun (a : Option Ty × Obj) (s : Slot) => ∀ p ∈ s.choices, Takes a p.1) args ss) :
    ∀ p ∈ combos ss, List.Forall₂ Takes args p.1 := by
  induction h with
  | nil =>
    intro p hp
    rw [combos, List.mem_singleton] at hp
    subst hp
    exact .nil
  | cons h _ ih =>
    intro p hp
    rw [combos, List.mem_flatMap] at hp
    obtain ⟨x, hx, hp⟩ := hp
    obtain ⟨y, hy, rfl⟩ := List.mem_map.1 hp
    exact .cons (h x hx) (ih y hy)

theorem combos_easy {ss : List Slot} (h : ss.any Slot.isHard = false) : ∃ p, combos ss = [p] := by
  induction ss with
  | nil => exact ⟨_, rfl⟩
  | cons s ss ih =>
    rw [List.any_cons, Bool.or_eq_false_iff] at h
    obtain ⟨p, hp⟩ := ih h.2
    cases s with
    | hard l => cases h.1
    | easy o => exact ⟨(o :: p.1, 1 * p.2), by rw [combos, hp]; rfl⟩

/-- Functions that do the same on values of the types of the parameters do the same when they are called. -/
theorem Like.castCall {D c : ℤ} {f f' : List Obj → M (Option Obj)} {args : List (Option Ty × Obj)}
    (h : ∀ os, List.Forall₂ Takes args os → Like D c (f os) (f' os)) :
    Like D c (PythonDice.castCall f args) (PythonDice.castCall f' args) := by
  unfold PythonDice.castCall
  split
  · exact Like.pure _
  · rename_i ha
    refine Like.bindP (Like.refl (KeepsSettings.forList (fun a => KeepsSettings.castSlot a.1 a.2) args))
      (fun w ss hss => castSlots_fits args (by simpa using ha) w ss hss) fun ss hss => ?_
    split
    · exact Like.bind (Like.forList fun p hp => Like.bind (h p.1 (combos_fits hss p hp)) fun v => Like.pure _) fun res =>
        Like.bind (Like.refl (KeepsSettings.ofLimited _)) fun r => Like.pure _
    · rename_i hh
      obtain ⟨p, hp⟩ := combos_easy (ss := ss) (by simpa using hh)
      rw [hp]
      exact h p.1 (combos_fits hss p (by rw [hp]; exact List.mem_singleton.2 rfl))

/-- A call of a function of a program, where functions may be called, does what the body does. -/
theorem Like.depthCall {D c : ℤ} {m m' : M (Option Obj)} (hc : c < D) (h : Like D (c + 1) m m') (hd : Deepless m') (hk : KeepsSettings m') :
    Like D c (PythonDice.depthCall m) (PythonDice.orBlank m') := by
  intro w h1 h2
  have e0 := hd w (c + 1)
  obtain ⟨e1, e2⟩ := h (w.atDepth (c + 1)) h1 rfl
  have hl : PythonDice.depthCall m w =
      (match m (w.atDepth (c + 1)) with
        | (.ok x, v) => (.ok (x.getD (.blank false)), v.atDepth (v.settings.currDepth - 1))
        | (.error e, v) => (.error e, v)) := by
    unfold PythonDice.depthCall
    show M.bind M.settings _ w = _
    unfold M.bind M.settings
    dsimp only
    rw [if_neg (by rw [h1, h2]; exact not_le.2 hc)]
    show M.bind (M.modify _) _ w = _
    unfold M.bind M.modify
    dsimp only
    have : ({ w with settings := { w.settings with currDepth := w.settings.currDepth + 1 } } : World) = w.atDepth (c + 1) := by
      rw [← h2]; rfl
    rw [this]
    show M.bind m _ _ = _
    unfold M.bind
    rcases m (w.atDepth (c + 1)) with ⟨r, v⟩
    cases r <;> rfl
  have hr : PythonDice.orBlank m' w =
      (match m' w with
        | (.ok x, v) => (.ok (x.getD (.blank false)), v)
        | (.error e, v) => (.error e, v)) := by
    unfold PythonDice.orBlank
    show M.bind m' _ w = _
    unfold M.bind
    rcases m' w with ⟨r, v⟩
    cases r <;> rfl
  have hs := hk w
  rw [hl, hr]
  rw [e0] at e1 e2
  rcases hm : m (w.atDepth (c + 1)) with ⟨r, v⟩
  rcases hm' : m' w with ⟨r', v'⟩
  rw [hm, hm'] at e1 e2
  rw [hm'] at hs
  dsimp only at e1 e2 hs
  subst e1
  cases r with
  | error e => exact ⟨rfl, fun x hx => (by cases hx)⟩
  | ok x =>
    refine ⟨rfl, fun _ _ => ?_⟩
    obtain ⟨e3, -, -⟩ := e2 x rfl
    dsimp only
    refine ⟨?_, by rw [hs, h1], by rw [hs, h2]⟩
    rw [e3]
    have : (v'.atDepth (c + 1)).settings.currDepth - 1 = v'.settings.currDepth := by
      rw [hs, h2]
      show c + 1 - 1 = c
      omega
    rw [this]
    rfl

/-- What a body gives. -/
def bodyOf (R : Rules) (call : RunCall) (fns : Fns) (fr : Frame) (d : List DefPart) (body : Block) (os : List Obj) : M (Option Obj) := do
  let r ← runB R call body ⟨fns, enter R fr d body os⟩
  Pure.pure r.2

theorem like_takes {D c : ℤ} (hc : c < D) {R : Rules} {n : ℕ} {fr : Frame} {fns : Fns} {d : List DefPart} {body : Block} {args : List Obj}
    {ts : List (Option Ty)} (ht : (paramsOf d).map Prod.snd = ts) {f : List Obj → M (Option Obj)}
    (hd : ∀ l, Deepless (f l)) (hk : ∀ l, KeepsSettings (f l))
    (h : ∀ os, List.Forall₂ Takes (ts.zip args) os → Like D (c + 1) (bodyOf R (runCall R n) fns fr d body os) (f os)) :
    Like D c (runCall R (n + 1) fr fns d body args) (PythonDice.orBlank (PythonDice.castCall f (ts.zip args))) := by
  subst ht
  unfold runCall fnCall
  exact Like.depthCall hc (Like.castCall fun os hos => h os hos) (Deepless.castCall hd _) (KeepsSettings.castCall hk _)

theorem like_call {D c : ℤ} (hc : c < D) {R : Rules} {n : ℕ} {fr : Frame} {fns : Fns} {d : List DefPart} {body : Block} {args : List Obj}
    {ts : List (Option Ty)} (ht : (paramsOf d).map Prod.snd = ts) (hl : ts.length = args.length) {f : List Obj → M (Option Obj)}
    (hd : ∀ l, Deepless (f l)) (hk : ∀ l, KeepsSettings (f l))
    (h : ∀ os, List.Forall₂ (fun t o => fits t o = true) ts os → Like D (c + 1) (bodyOf R (runCall R n) fns fr d body os) (f os)) :
    Like D c (runCall R (n + 1) fr fns d body args) (PythonDice.orBlank (PythonDice.castCall f (ts.zip args))) := by
  refine like_takes hc ht hd hk fun os hos => h os ?_
  have e : ts = (ts.zip args).map Prod.fst := (List.map_fst_zip (by omega)).symm
  rw [e, List.forall₂_map_left_iff]
  exact hos.imp fun _ _ hx => hx.1

theorem Like.doesAs {w : World} {m m' : M Obj} (h : Like w.settings.maxFuncDepth w.settings.currDepth m m') : DoesAs w m m' := by
  obtain ⟨h1, h2⟩ := h w rfl rfl
  exact ⟨h1, fun o ho => (h2 o ho).1⟩

end PythonDice.Own
