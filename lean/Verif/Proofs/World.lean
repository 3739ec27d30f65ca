import Verif.Model.Funclib
import Verif.Model.History
import Verif.Proofs.Expand
import Verif.Props.Mix

/-! The effect monad: rules for reasoning. -/

namespace PythonDice
open Spec

namespace M
variable {β γ δ : Type}

theorem pure_apply (x : β) (w : World) : (pure x : M β) w = (.ok x, w) := rfl

theorem bind_apply (m : M β) (f : β → M γ) (w : World) :
    (m >>= f) w = match m w with
      | (.ok x, w') => f x w'
      | (.error e, w') => (.error e, w') := rfl

theorem map_apply (m : M β) (f : β → γ) (w : World) :
    (f <$> m) w = match m w with
      | (.ok x, w') => (.ok (f x), w')
      | (.error e, w') => (.error e, w') := rfl

theorem bind_ok {m : M β} {f : β → M γ} {w w' : World} {x : β} (h : m w = (.ok x, w')) :
    (m >>= f) w = f x w' := by rw [bind_apply, h]

theorem bind_error {m : M β} {f : β → M γ} {w w' : World} {e : Err} (h : m w = (.error e, w')) :
    (m >>= f) w = (.error e, w') := by rw [bind_apply, h]

theorem map_ok {m : M β} {f : β → γ} {w w' : World} {x : β} (h : m w = (.ok x, w')) :
    (f <$> m) w = (.ok (f x), w') := by rw [map_apply, h]

theorem bind_ok_iff (m : M β) (f : β → M γ) (w w'' : World) (y : γ) :
    (m >>= f) w = (.ok y, w'') ↔ ∃ x w', m w = (.ok x, w') ∧ f x w' = (.ok y, w'') := by
  rw [bind_apply]
  constructor
  · intro h
    split at h
    · rename_i x w' hm; exact ⟨x, w', hm, h⟩
    · cases h
  · rintro ⟨x, w', h1, h2⟩
    rw [h1]; exact h2

theorem map_ok_iff (m : M β) (f : β → γ) (w w'' : World) (y : γ) :
    (f <$> m) w = (.ok y, w'') ↔ ∃ x, m w = (.ok x, w'') ∧ f x = y := by
  rw [map_apply]
  constructor
  · intro h
    split at h
    · rename_i x w' hm
      cases h; exact ⟨x, hm, rfl⟩
    · cases h
  · rintro ⟨x, h1, h2⟩
    rw [h1, ← h2]

instance : LawfulMonad M := LawfulMonad.mk'
  (id_map := by
    intro β m; funext w; rw [map_apply]
    split <;> (rename_i h; rw [h]); rfl)
  (pure_bind := by intros; rfl)
  (bind_assoc := by
    intro β γ δ m f g; funext w
    simp only [bind_apply]
    cases h : m w with
    | mk r w' => cases r <;> rfl)
  (bind_pure_comp := by intros; rfl)

theorem forList_nil (f : β → M γ) : forList f [] = pure [] := rfl

theorem forList_cons (f : β → M γ) (x : β) (xs : List β) :
    forList f (x :: xs) = (do let y ← f x; let ys ← forList f xs; pure (y :: ys)) := rfl

end M

/-! ## Histories -/

/-- What a computation guarantees when no reduction warning has ever been logged: started with settings
satisfying `I`, if it returns then the settings still satisfy `I` and the result satisfies `P`. -/
def Triple {β : Type} (I : Settings → Prop) (m : M β) (P : β → Prop) : Prop :=
  ∀ w, Reachable w → I w.settings → Reachable (m w).2 ∧ w.warns ≤ (m w).2.warns ∧
    ∀ x, (m w).1 = .ok x → I (m w).2.settings ∧ ((m w).2.warns = 0 → P x)

namespace Triple
variable {β γ : Type} {I : Settings → Prop}

theorem pure {x : β} {P : β → Prop} (h : P x) : Triple I (pure x : M β) P :=
  fun w hw hi => ⟨hw, le_refl _, fun y hy => by cases hy; exact ⟨hi, fun _ => h⟩⟩

theorem throw {e : Err} {P : β → Prop} : Triple I (M.throw e : M β) P :=
  fun w hw hi => ⟨hw, le_refl _, fun y hy => by cases hy⟩

theorem bind {m : M β} {f : β → M γ} {P : β → Prop} {Q : γ → Prop} (hm : Triple I m P)
    (hf : ∀ x, P x → Triple I (f x) Q) (hf' : ∀ x, Triple I (f x) fun _ => True) : Triple I (m >>= f) Q := by
  intro w hw hi
  obtain ⟨h1, h2, h3⟩ := hm w hw hi
  rw [M.bind_apply]
  cases h : m w with
  | mk r w' =>
    rw [h] at h1 h2 h3
    cases r with
    | error e => exact ⟨h1, h2, fun x hx => by cases hx⟩
    | ok x =>
      simp only at *
      obtain ⟨hI, h4⟩ := h3 x rfl
      obtain ⟨g1, g2, g3⟩ := hf' x w' h1 hI
      refine ⟨g1, h2.trans g2, fun y hy => ⟨(g3 y hy).1, fun hz => ?_⟩⟩
      have hw0 : w'.warns = 0 := by omega
      exact ((hf x (h4 hw0) w' h1 hI).2.2 y hy).2 hz

theorem mono {m : M β} {P Q : β → Prop} (hm : Triple I m P) (h : ∀ x, P x → Q x) : Triple I m Q :=
  fun w hw hi => ⟨(hm w hw hi).1, (hm w hw hi).2.1,
    fun x hx => ⟨((hm w hw hi).2.2 x hx).1, fun hz => h x (((hm w hw hi).2.2 x hx).2 hz)⟩⟩

theorem trivial' {m : M β} {P : β → Prop} (hm : Triple I m P) : Triple I m fun _ => True :=
  hm.mono fun _ _ => True.intro

theorem bind' {m : M β} {f : β → M γ} {Q : γ → Prop} (hm : Triple I m fun _ => True)
    (hf : ∀ x, Triple I (f x) Q) : Triple I (m >>= f) Q :=
  bind hm (fun x _ => hf x) fun x => (hf x).trivial'

theorem map {m : M β} {f : β → γ} {P : β → Prop} {Q : γ → Prop} (hm : Triple I m P)
    (h : ∀ x, P x → Q (f x)) : Triple I (f <$> m) Q := by
  rw [← bind_pure_comp]
  exact bind hm (fun x hx => pure (h x hx)) fun x => pure True.intro

theorem ofSettings {f : Settings → Except Err β} {P : β → Prop} (h : ∀ st x, I st → f st = .ok x → P x) :
    Triple I (M.ofSettings f) P :=
  fun w hw hi => ⟨hw, le_refl _, fun x hx => ⟨hi, fun _ => h _ x hi hx⟩⟩

theorem ofLimited {f : Settings → Except Err (β × Bool)} {P : β → Prop}
    (h : ∀ st x, I st → f st = .ok (x, false) → P x) : Triple I (M.ofLimited f) P := by
  intro w hw hi
  unfold M.ofLimited
  cases hf : f w.settings with
  | error e => exact ⟨hw, le_refl _, fun x hx => by cases hx⟩
  | ok xb =>
    obtain ⟨x, b⟩ := xb
    cases b with
    | true => exact ⟨hw.warn, by simp, fun y _ => ⟨hi, fun hz => by simp at hz⟩⟩
    | false => exact ⟨hw, le_refl _, fun y hy => ⟨hi, fun _ => by cases hy; exact h _ _ hi hf⟩⟩

theorem settings {P : Settings → Prop} (h : ∀ s, I s → P s) : Triple I M.settings P :=
  fun w hw hi => ⟨hw, le_refl _, fun x hx => ⟨hi, fun _ => by cases hx; exact h _ hi⟩⟩

theorem forList {f : β → M γ} {P : β → γ → Prop} {l : List β} (h : ∀ x ∈ l, Triple I (f x) (P x)) :
    Triple I (M.forList f l) fun ys => List.Forall₂ P l ys := by
  induction l with
  | nil => exact pure .nil
  | cons x xs ih =>
    rw [M.forList_cons]
    have ih' := ih fun y hy => h y (List.mem_cons_of_mem _ hy)
    have hx := h x List.mem_cons_self
    exact bind hx (fun y hy => bind ih' (fun ys hys => pure (.cons hy hys)) fun _ => pure True.intro)
      fun y => bind' ih'.trivial' fun ys => pure True.intro

theorem and {m : M β} {P Q : β → Prop} (h1 : Triple I m P) (h2 : Triple I m Q) : Triple I m fun x => P x ∧ Q x :=
  fun w hw hi => ⟨(h1 w hw hi).1, (h1 w hw hi).2.1, fun x hx => ⟨((h1 w hw hi).2.2 x hx).1,
    fun h0 => ⟨((h1 w hw hi).2.2 x hx).2 h0, ((h2 w hw hi).2.2 x hx).2 h0⟩⟩⟩

/-- Reading off a run. -/
theorem run {m : M β} {P : β → Prop} (h : Triple I m P) {w w' : World} (hw : Reachable w) (hi : I w.settings)
    {x : β} (hr : m w = (.ok x, w')) (h0 : w'.warns = 0) : P x := by
  have := ((h w hw hi).2.2 x (by rw [hr])).2 (by rw [hr]; exact h0)
  exact this

end Triple
end PythonDice
