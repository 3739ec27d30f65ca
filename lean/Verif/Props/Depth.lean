import Verif.Spec.Program
import Verif.Proofs.Cast

/-!
# Properties of the function depth limit: C17, C18
-/

namespace PythonDice
open Spec

/-- Warnings that may still be printed plus those printed. -/
def msgBudget (w : World) : ℕ := w.depthMsgs + if w.settings.currDepthWarningPrinted then 0 else 1

/-- What running part of a program may do to the state. -/
structure DepthStep (w w' : World) : Prop where
  lim : w'.settings.maxFuncDepth = w.settings.maxFuncDepth
  up : w.settings.currDepth ≤ w'.settings.currDepth
  msgs : w.depthMsgs ≤ w'.depthMsgs ∧ msgBudget w' ≤ msgBudget w
  levels : ∃ t, w'.trace = w.trace ++ t ∧ ∀ e ∈ t, ∃ l : ℕ, e = [.num l] ∧ (l : ℤ) ≤ w.settings.maxFuncDepth

namespace DepthStep

theorem trans {a b c : World} (h1 : DepthStep a b) (h2 : DepthStep b c) : DepthStep a c := by
  obtain ⟨t, e, ht⟩ := h1.levels
  obtain ⟨t', e', ht'⟩ := h2.levels
  refine ⟨h2.lim.trans h1.lim, h1.up.trans h2.up, ⟨h1.msgs.1.trans h2.msgs.1, h2.msgs.2.trans h1.msgs.2⟩, t ++ t', ?_, ?_⟩
  · rw [e', e, List.append_assoc]
  · intro x hx
    rcases List.mem_append.1 hx with hx | hx
    · exact ht x hx
    · rw [← h1.lim]; exact ht' x hx

theorem of_quiet {β : Type} {m : M β} (h : Quiet m) (w : World) : DepthStep w (m w).2 := by
  obtain ⟨h1, h2, h3⟩ := h w
  exact ⟨by rw [h1], by rw [h1], ⟨by rw [h2], by rw [msgBudget, h1, h2]; exact le_refl _⟩, [], by simp [h3], by simp⟩

end DepthStep

/-- Started with at least `g` levels accounted for (and `g` within the limit, if `inside`), `m` only makes
`DepthStep`s, also when it raises. -/
def Steps {β : Type} (g : ℕ) (inside : Prop) (m : M β) : Prop :=
  ∀ w, (g : ℤ) ≤ w.settings.currDepth → (inside → (g : ℤ) ≤ w.settings.maxFuncDepth) → DepthStep w (m w).2

/-- If `m` returns, the current depth is what it was. -/
def Restores {β : Type} (m : M β) : Prop := ∀ w x w', m w = (.ok x, w') → w'.settings.currDepth = w.settings.currDepth

theorem Steps.bind {β γ : Type} {g : ℕ} {c : Prop} {m : M β} {f : β → M γ} (hm : Steps g c m) (hf : ∀ x, Steps g c (f x)) :
    Steps g c (m >>= f) := by
  intro w hw hc
  have h1 := hm w hw hc
  rw [M.bind_apply]
  split
  · rename_i h
    rw [h] at h1
    exact h1.trans (hf _ _ (hw.trans h1.up) (by rw [h1.lim]; exact hc))
  · rename_i h; rw [h] at h1; exact h1

theorem Restores.bind {β γ : Type} {m : M β} {f : β → M γ} (hm : Restores m) (hf : ∀ x, Restores (f x)) : Restores (m >>= f) := by
  intro w x w' h
  rw [M.bind_ok_iff] at h
  obtain ⟨y, w1, h1, h2⟩ := h
  rw [hf y _ _ _ h2, hm _ _ _ h1]

theorem Quiet.steps {β : Type} {m : M β} (h : Quiet m) (g : ℕ) (c : Prop) : Steps g c m := fun w _ _ => .of_quiet h w

theorem Quiet.restores {β : Type} {m : M β} (h : Quiet m) : Restores m := by
  intro w x w' hr
  have := (h w).1
  rw [hr] at this
  rw [this]

theorem quiet_pure {β : Type} (x : β) : Quiet (pure x : M β) := fun _ => ⟨rfl, rfl, rfl⟩

theorem quiet_throw {β : Type} (e : Err) : Quiet (M.throw e : M β) := fun _ => ⟨rfl, rfl, rfl⟩

theorem Quiet.bind {β γ : Type} {m : M β} {f : β → M γ} (hm : Quiet m) (hf : ∀ x, Quiet (f x)) : Quiet (m >>= f) := by
  intro w
  have h1 := hm w
  rw [M.bind_apply]
  split
  · rename_i x w1 h
    rw [h] at h1
    have h2 := hf x w1
    exact ⟨h2.1.trans h1.1, h2.2.1.trans h1.2.1, h2.2.2.trans h1.2.2⟩
  · rename_i h; rw [h] at h1; exact h1

theorem quiet_ofLimited {β : Type} (f : Settings → Except Err (β × Bool)) : Quiet (M.ofLimited f) := by
  intro w
  unfold M.ofLimited
  split
  · simp only; split <;> exact ⟨rfl, rfl, rfl⟩
  · exact ⟨rfl, rfl, rfl⟩

theorem quiet_castMix (ys : List (RV.Entry ℤ × ℕ)) : Quiet (castMix ys) :=
  (quiet_ofLimited _).bind fun _ => quiet_pure _

theorem steps_forList {β γ : Type} {g : ℕ} {c : Prop} {f : β → M γ} (h : ∀ x, Steps g c (f x)) (l : List β) : Steps g c (M.forList f l) := by
  induction l with
  | nil => exact (quiet_pure _).steps g _
  | cons x l ih => exact (h x).bind fun _ => ih.bind fun _ => (quiet_pure _).steps g _

theorem restores_forList {β γ : Type} {f : β → M γ} (h : ∀ x, Restores (f x)) (l : List β) : Restores (M.forList f l) := by
  induction l with
  | nil => exact (quiet_pure _).restores
  | cons x l ih => exact (h x).bind fun _ => ih.bind fun _ => (quiet_pure _).restores

theorem steps_castCall {g : ℕ} {c : Prop} {f : List Obj → M (Option Obj)} (h : ∀ a, Steps g c (f a)) (args : List (Option Ty × Obj)) :
    Steps g c (castCall f args) := by
  rw [castCall_eq]
  split
  · exact (quiet_pure _).steps g _
  · split
    · exact (steps_forList (fun x : List Obj × ℕ => (h x.1).bind fun _ => (quiet_pure _).steps g _) _).bind fun ys => (quiet_castMix ys).steps g _
    · exact h _

theorem restores_castCall {f : List Obj → M (Option Obj)} (h : ∀ a, Restores (f a)) (args : List (Option Ty × Obj)) :
    Restores (castCall f args) := by
  rw [castCall_eq]
  split
  · exact (quiet_pure _).restores
  · split
    · exact (restores_forList (fun x : List Obj × ℕ => (h x.1).bind fun _ => (quiet_pure _).restores) _).bind fun ys => (quiet_castMix ys).restores
    · exact h _

/-- The state after refusing a call. -/
def refused (w : World) : World :=
  if w.settings.currDepthWarningPrinted then w
  else { w with depthMsgs := w.depthMsgs + 1, settings := { w.settings with currDepthWarningPrinted := true } }

/-- The state in which a body starts. -/
def deeper (w : World) : World := { w with settings := { w.settings with currDepth := w.settings.currDepth + 1 } }

/-- The state after a body has returned. -/
def shallower (w : World) : World := { w with settings := { w.settings with currDepth := w.settings.currDepth - 1 } }

theorem depthCall_beyond (body : M (Option Obj)) (w : World) (h : w.settings.maxFuncDepth ≤ w.settings.currDepth) :
    depthCall body w = (.ok (.blank false), refused w) := by
  unfold depthCall
  rw [M.bind_ok (show M.settings w = (.ok w.settings, w) from rfl), if_pos h]
  unfold refused
  split <;> rfl

theorem depthCall_within (body : M (Option Obj)) (w : World) (h : w.settings.currDepth < w.settings.maxFuncDepth) :
    depthCall body w = match body (deeper w) with
      | (.ok v, w') => (.ok (v.getD (.blank false)), shallower w')
      | (.error e, w') => (.error e, w') := by
  unfold depthCall
  rw [M.bind_ok (show M.settings w = (.ok w.settings, w) from rfl), if_neg (by omega)]
  change (body >>= fun res => (do M.modify shallower; pure (res.getD (.blank false)) : M Obj)) (deeper w) = _
  rw [M.bind_apply]
  cases body (deeper w) with
  | mk r w' => cases r <;> rfl

/-- C17. A call beyond the limit returns a blank die; the body is not called (nothing but the warning happens). -/
theorem C17_beyond_limit (f : List Obj → M (Option Obj)) (args : List (Option Ty × Obj)) (w : World)
    (h : w.settings.maxFuncDepth ≤ w.settings.currDepth) :
    (fnCall f args w).1 = .ok (.blank false) ∧ (fnCall f args w).2.trace = w.trace ∧ (fnCall f args w).2.memo = w.memo ∧
      (fnCall f args w).2.depthMsgs = (if w.settings.currDepthWarningPrinted then w.depthMsgs else w.depthMsgs + 1) ∧
      (fnCall f args w).2.settings = { w.settings with currDepthWarningPrinted := true } := by
  unfold fnCall
  rw [depthCall_beyond _ _ h, refused]
  split
  · rename_i hp
    refine ⟨rfl, rfl, rfl, rfl, ?_⟩
    cases hs : w.settings
    rw [hs] at hp
    simp only at hp ⊢
    rw [hp]
  · exact ⟨rfl, rfl, rfl, rfl, rfl⟩

/-- C17. Within the limit the body is run one level deeper, and its result returned, a blank for nothing. -/
theorem C17_within_limit (f : List Obj → M (Option Obj)) (args : List (Option Ty × Obj)) (w w' : World) (v : Option Obj)
    (h : w.settings.currDepth < w.settings.maxFuncDepth)
    (hb : castCall f args { w with settings := { w.settings with currDepth := w.settings.currDepth + 1 } } = (.ok v, w')) :
    (fnCall f args w).1 = .ok (v.getD (.blank false)) ∧
      (fnCall f args w).2 = { w' with settings := { w'.settings with currDepth := w'.settings.currDepth - 1 } } := by
  unfold fnCall
  rw [depthCall_within _ _ h, deeper, hb]
  exact ⟨rfl, rfl⟩

theorem steps_body {g : ℕ} {m : M (Option Obj)} (h : Steps (g + 1) True m) :
    Steps (g + 1) True (do enter (g + 1); m) := by
  intro w hw hc
  have hs := h { w with trace := w.trace ++ [[.num ((g + 1 : ℕ) : ℤ)]] } hw hc
  obtain ⟨t, et, ht⟩ := hs.levels
  refine ⟨hs.lim, hs.up, hs.msgs, [.num ((g + 1 : ℕ) : ℤ)] :: t, et.trans (by simp), fun x hx => ?_⟩
  rcases List.mem_cons.1 hx with rfl | hx
  · exact ⟨g + 1, rfl, hc trivial⟩
  · exact ht x hx

theorem steps_fnCall {g : ℕ} {f : List Obj → M (Option Obj)} (h : ∀ a, Steps (g + 1) True (f a))
    (args : List (Option Ty × Obj)) : Steps g False (fnCall f args) := by
  intro w hw _
  unfold fnCall
  by_cases hlt : w.settings.currDepth < w.settings.maxFuncDepth
  · rw [depthCall_within _ _ hlt]
    have hs := steps_castCall h args (deeper w) (by simp only [deeper]; push_cast; omega)
      (fun _ => by simp only [deeper]; push_cast; omega)
    obtain ⟨t, et, ht⟩ := hs.levels
    have hup : w.settings.currDepth + 1 ≤ (castCall f args (deeper w)).2.settings.currDepth := hs.up
    split
    · rename_i v w' e
      rw [e] at hs hup et
      simp only at hup
      exact ⟨hs.lim, by simp only [shallower]; omega, hs.msgs, t, et, ht⟩
    · rename_i v w' e
      rw [e] at hs hup et
      simp only at hup
      exact ⟨hs.lim, by simp only; omega, hs.msgs, t, et, ht⟩
  · rw [depthCall_beyond _ _ (by omega), refused]
    split
    · exact .of_quiet (quiet_pure ()) w
    · rename_i hp
      refine ⟨rfl, le_refl _, ⟨by simp, ?_⟩, [], by simp, by simp⟩
      simp [msgBudget, hp]

theorem Steps.inside {β : Type} {g : ℕ} {c : Prop} {m : M β} (h : Steps g False m) : Steps g c m :=
  fun w hw _ => h w hw False.elim

theorem steps_exec (p : Prog) (g : ℕ) : Steps g False (p.exec g) := by
  induction p generalizing g with
  | ret o => exact (quiet_pure o).steps g _
  | fail e => exact (quiet_throw e).steps g _
  | op m h k ih => exact (h.steps g _).bind fun o => ih o g
  | call f args k ihf ihk =>
    exact (steps_fnCall (fun a => steps_body (ihf a (g + 1)).inside) args).bind fun o => ihk o g
  | attempt p k ihp ihk =>
    refine Steps.bind (fun w hw hc => ?_) fun r => ihk r g
    have := ihp g w hw hc
    unfold M.attempt
    split <;> (rename_i e; rw [e] at this; exact this)

/-- C17. However the bodies call each other, raise and catch exceptions: no body executes more than 'maximum function depth' levels
deep (`t` are the levels at which bodies started). -/
theorem C17_levels (p : Prog) (w : World) (hd : 0 ≤ w.settings.currDepth) :
    ∃ t, (p.exec 0 w).2.trace = w.trace ++ t ∧ ∀ e ∈ t, ∃ l : ℕ, e = [.num l] ∧ (l : ℤ) ≤ w.settings.maxFuncDepth :=
  (steps_exec p 0 w (by simpa using hd) False.elim).levels

/-- C17. The warning is printed at most once, and not again once the flag is set. -/
theorem C17_warning_once (p : Prog) (w : World) (hd : 0 ≤ w.settings.currDepth) :
    (p.exec 0 w).2.depthMsgs ≤ w.depthMsgs + 1 ∧
      (w.settings.currDepthWarningPrinted = true → (p.exec 0 w).2.depthMsgs = w.depthMsgs) := by
  obtain ⟨h1, h2⟩ := (steps_exec p 0 w (by simpa using hd) False.elim).msgs
  unfold msgBudget at h2
  constructor
  · split at h2 <;> split at h2 <;> omega
  · intro h
    rw [if_pos h] at h2
    split at h2 <;> omega

theorem restores_fnCall {f : List Obj → M (Option Obj)} (h : ∀ a, Restores (f a)) (args : List (Option Ty × Obj)) :
    Restores (fnCall f args) := by
  intro w x w' hr
  unfold fnCall at hr
  by_cases hlt : w.settings.currDepth < w.settings.maxFuncDepth
  · rw [depthCall_within _ _ hlt] at hr
    split at hr
    · rename_i v w1 e
      have := restores_castCall h args _ _ _ e
      cases hr
      simp only [shallower, deeper] at this ⊢
      omega
    · cases hr
  · rw [depthCall_beyond _ _ (by omega)] at hr
    cases hr
    unfold refused
    split <;> rfl

theorem restores_enter {m : M (Option Obj)} (l : ℕ) (h : Restores m) : Restores (do enter l; m) :=
  Restores.bind (fun w x w' hr => by cases hr; rfl) fun _ => h

theorem restores_exec (p : Prog) : (p.Contained → ∀ g, Restores (p.exec g)) ∧
    (p.Contained → p.CallsReturn → ∀ g w e w', p.exec g w = (.error e, w') → w'.settings.currDepth = w.settings.currDepth) := by
  induction p with
  | ret o => exact ⟨fun _ g => (quiet_pure o).restores, fun _ _ g w e w' h => by cases h⟩
  | fail e => exact ⟨fun _ g => (quiet_throw e).restores, fun _ _ g w e w' h => by cases h; rfl⟩
  | op m h k ih =>
    refine ⟨fun hp g => h.restores.bind fun o => (ih o).1 (hp o) g, fun hp hc g w e w' hr => ?_⟩
    change (m >>= fun o => (k o).exec g) w = _ at hr
    have hq := (h w).1
    rw [M.bind_apply] at hr
    split at hr
    · rename_i o w1 e1
      rw [e1] at hq
      rw [(ih o).2 (hp o) (hc o) g _ _ _ hr, hq]
    · rename_i e1
      rw [e1] at hq
      cases hr
      rw [← hq]
  | call f args k ihf ihk =>
    have hF : ∀ (_ : (Prog.call f args k).Contained) (g : ℕ),
        Restores (fnCall (fun a => do enter (g + 1); (f a).exec (g + 1)) args) := fun hp g =>
      restores_fnCall (fun a => restores_enter _ ((ihf a).1 (hp.1 a) (g + 1))) args
    refine ⟨fun hp g => (hF hp g).bind fun o => (ihk o).1 (hp.2 o) g, fun hp hc g w e w' hr => ?_⟩
    change (fnCall (fun a => do enter (g + 1); (f a).exec (g + 1)) args >>= fun o => (k o).exec g) w = _ at hr
    rw [M.bind_apply] at hr
    split at hr
    · rename_i o w1 e1
      rw [(ihk o).2 (hp.2 o) (hc.2 o) g _ _ _ hr, hF hp g _ _ _ e1]
    · rename_i e' w1 e1
      exfalso
      unfold fnCall at e1
      by_cases hlt : w.settings.currDepth < w.settings.maxFuncDepth
      · rw [depthCall_within _ _ hlt] at e1
        obtain ⟨o, ho⟩ := hc.1 g (deeper w)
        unfold Prog.castBody at ho
        split at e1
        · cases e1
        · rename_i e2; rw [e2] at ho; cases ho
      · rw [depthCall_beyond _ _ (by omega)] at e1; cases e1
  | attempt p k ihp ihk =>
    have hA : ∀ (_ : (Prog.attempt p k).Contained) (g : ℕ), Restores (M.attempt (p.exec g)) := by
      intro hp g w x w' hr
      unfold M.attempt at hr
      split at hr
      · rename_i e; cases hr; exact ihp.1 hp.1 g _ _ _ e
      · rename_i e; cases hr; exact ihp.2 hp.1 hp.2.1 g _ _ _ e
    refine ⟨fun hp g => (hA hp g).bind fun r => (ihk r).1 (hp.2.2 r) g, fun hp hc g w e w' hr => ?_⟩
    change (M.attempt (p.exec g) >>= fun r => (k r).exec g) w = _ at hr
    rw [M.bind_apply] at hr
    split at hr
    · rename_i r w1 e1
      rw [(ihk r).2 (hp.2.2 r) (hc.2 r) g _ _ _ hr, hA hp g _ _ _ e1]
    · rename_i e1
      unfold M.attempt at e1
      split at e1 <;> cases e1

/-- C17. After a program (or any call in it) returns, the current depth is what it was before. -/
theorem C17_depth_restored (p : Prog) (hp : p.Contained) (g : ℕ) (w w' : World) (o : Option Obj)
    (h : p.exec g w = (.ok o, w')) : w'.settings.currDepth = w.settings.currDepth :=
  (restores_exec p).1 hp g w o w' h

/-- A function calling itself `n` times, each level adding 1 to the result of the level below. -/
def nest : ℕ → List Obj → Prog
  | 0, _ => .ret (some (.num 0))
  | n + 1, _ => .call (nest n) [] fun
    | .num k => .ret (some (.num (k + 1)))
    | _ => .ret (some (.num 100))

theorem nest_contained (n : ℕ) (a : List Obj) : (nest n a).Contained := by
  induction n generalizing a with
  | zero => trivial
  | succ n ih => exact ⟨fun b => ih b, fun o => by cases o <;> trivial⟩

/-- limit 3: the fourth nested call is refused, once -/
example : (nest 5 []).exec 0 { settings := { maxFuncDepth := 3 } } =
    (.ok (some (.num 103)), { settings := { maxFuncDepth := 3, currDepthWarningPrinted := true }, depthMsgs := 1, trace := [[.num 1], [.num 2], [.num 3]] }) := by decide +kernel

example : ((nest 5 []).exec 0 {}).1 = .ok (some (.num 5)) := by decide +kernel

/-! ## C18 -/

/-- Calls a function that raises, catches the exception, and calls another function. -/
def retry : Prog :=
  .attempt (.call (fun _ => .fail .user) [] fun o => .ret (some o)) fun _ =>
    .call (fun _ => .ret (some (.num 7))) [] fun o => .ret (some o)

/-- C18 is false: after a caught exception the depth stays increased, and a later call is refused although nothing is executing. -/
theorem C18_exception_counterexample :
    (retry.exec 0 { settings := { maxFuncDepth := 1 } }).1 = .ok (some (.blank false)) ∧
    (retry.exec 0 { settings := { maxFuncDepth := 1 } }).2.settings.currDepth = 1 ∧
    ((Prog.call (fun _ => .ret (some (.num 7))) [] fun o => .ret (some o)).exec 0 { settings := { maxFuncDepth := 1 } }).1 =
      .ok (some (.num 7)) := by
  decide +kernel

/-- C18 (partial): true when no caught exception has left a decorated function: the depth is what it was before, whether the
program returns or raises. Missing: exceptions that leave a decorated function (false, see the counterexample). -/
theorem C18_contained_partial (p : Prog) (hp : p.Contained) (hc : p.CallsReturn) (g : ℕ) (w : World) :
    (p.exec g w).2.settings.currDepth = w.settings.currDepth := by
  cases h : p.exec g w with
  | mk r w' =>
    cases r with
    | ok o => exact (restores_exec p).1 hp g w o w' h
    | error e => exact (restores_exec p).2 hp hc g w e w' h

/-- an exception caught inside the function that raised it -/
def careful : Prog :=
  .call (fun _ => .attempt (.fail .user) fun _ => .ret (some (.num 1))) [] fun _ =>
    .call (fun _ => .ret (some (.num 7))) [] fun o => .ret (some o)

example : careful.Contained := ⟨fun _ => ⟨trivial, trivial, fun _ => trivial⟩, fun _ => ⟨fun _ => trivial, fun _ => trivial⟩⟩

example : careful.CallsReturn :=
  ⟨fun _ _ => ⟨some (.num 1), rfl⟩, fun _ => ⟨fun _ _ => ⟨some (.num 7), rfl⟩, fun _ => trivial⟩⟩

example : (careful.exec 0 { settings := { maxFuncDepth := 1 } }).1 = .ok (some (.num 7)) := by decide +kernel

end PythonDice
