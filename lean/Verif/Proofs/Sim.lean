import Verif.Proofs.Blind

/-!
# Two computations that do the same, except for the dictionaries
-/

namespace PythonDice

/-- The dictionaries are the same as before, except for `own`; there may be more. -/
def EnvExt (own : Option ℕ) (d d' : Dicts) : Prop := d.length ≤ d'.length ∧ ∀ j, j < d.length → some j ≠ own → d'[j]? = d[j]?

theorem EnvExt.refl (own : Option ℕ) (d : Dicts) : EnvExt own d d := ⟨le_refl _, fun _ _ _ => rfl⟩

theorem EnvExt.trans {own : Option ℕ} {a b c : Dicts} (h : EnvExt own a b) (h' : EnvExt own b c) : EnvExt own a c :=
  ⟨h.1.trans h'.1, fun j hj ho => (h'.2 j (lt_of_lt_of_le hj h.1) ho).trans (h.2 j hj ho)⟩

theorem EnvExt.weaken {d d' : Dicts} (h : EnvExt none d d') (own : Option ℕ) : EnvExt own d d' :=
  ⟨h.1, fun j hj _ => h.2 j hj (by simp)⟩

theorem EnvExt.get {own : Option ℕ} {d d' : Dicts} (h : EnvExt own d d') {i : ℕ} {D : List (List Char × Obj)} (ho : some i ≠ own)
    (hd : d[i]? = some D) : d'[i]? = some D := by
  rw [h.2 i (List.getElem?_eq_some_iff.1 hd).1 ho]
  exact hd

/-- The first outcome is the second, up to the relation and to the dictionaries. -/
def Match {α β : Type} (own : Option ℕ) (d : Dicts) (R : α → β → Dicts → Prop) (x : Except Err α × World) (y : Except Err β × World) : Prop :=
  match y.1 with
  | .ok b => ∃ a d', x = (.ok a, y.2.withDicts d') ∧ EnvExt own d d' ∧ R a b d'
  | .error e => ∃ d', x = (.error e, y.2.withDicts d')

/-- The first computation, beginning with the dictionaries `d`, does what the second does, up to the relation and to the dictionaries. -/
def Sim {α β : Type} (own : Option ℕ) (d : Dicts) (R : α → β → Dicts → Prop) (m : M α) (m' : M β) : Prop :=
  ∀ w : World, Match own d R (m (w.withDicts d)) (m' w)

/-- Equal results. -/
def SameRes {α : Type} (a b : α) (_ : Dicts) : Prop := a = b

namespace Sim
variable {α β γ δ : Type} {own : Option ℕ} {d : Dicts}

theorem pure {R : α → β → Dicts → Prop} {a : α} {b : β} (h : R a b d) : Sim own d R (Pure.pure a) (Pure.pure b) :=
  fun _ => ⟨a, d, rfl, EnvExt.refl _ _, h⟩

theorem throw {R : α → β → Dicts → Prop} (e : Err) : Sim own d R (M.throw e) (M.throw e) := fun _ => ⟨d, rfl⟩

theorem bind {R : α → β → Dicts → Prop} {Q : γ → δ → Dicts → Prop} {m : M α} {m' : M β} {f : α → M γ} {f' : β → M δ}
    (hm : Sim own d R m m') (hf : ∀ a b d', EnvExt own d d' → R a b d' → Sim own d' Q (f a) (f' b)) :
    Sim own d Q (m >>= f) (m' >>= f') := by
  intro w
  have h := hm w
  have e1 : (m >>= f) (w.withDicts d) = M.bind m f (w.withDicts d) := rfl
  have e2 : (m' >>= f') w = M.bind m' f' w := rfl
  rw [e1, e2]
  unfold M.bind
  unfold Match at h
  rcases hw : m' w with ⟨r, w'⟩
  rw [hw] at h
  cases r with
  | error e =>
    obtain ⟨d', h⟩ := h
    rw [h]
    exact ⟨d', rfl⟩
  | ok b =>
    obtain ⟨a, d', h, hx, hR⟩ := h
    rw [h]
    have h2 := hf a b d' hx hR w'
    unfold Match at h2 ⊢
    dsimp only at h2 ⊢
    rcases hr : (f' b w').1 with e | c
    · rw [hr] at h2
      exact h2
    · rw [hr] at h2
      obtain ⟨a2, d2, h2, hx2, hR2⟩ := h2
      exact ⟨a2, d2, h2, hx.trans hx2, hR2⟩

theorem mono {R Q : α → β → Dicts → Prop} {m : M α} {m' : M β} (h : Sim own d R m m')
    (hq : ∀ a b d', EnvExt own d d' → R a b d' → Q a b d') : Sim own d Q m m' := by
  intro w
  have h := h w
  unfold Match at h ⊢
  rcases hr : (m' w).1 with e | c
  · rw [hr] at h
    exact h
  · rw [hr] at h
    obtain ⟨a, d', h, hx, hR⟩ := h
    exact ⟨a, d', h, hx, hq _ _ _ hx hR⟩

theorem weaken {R : α → β → Dicts → Prop} {m : M α} {m' : M β} (h : Sim none d R m m') (own : Option ℕ) : Sim own d R m m' := by
  intro w
  have h := h w
  unfold Match at h ⊢
  rcases hr : (m' w).1 with e | c
  · rw [hr] at h
    exact h
  · rw [hr] at h
    obtain ⟨a, d', h, hx, hR⟩ := h
    exact ⟨a, d', h, hx.weaken _, hR⟩

theorem blind {m : M α} (h : Blind m) : Sim own d (fun a b d' => a = b ∧ d' = d) m m := by
  intro w
  unfold Match
  rw [h w d]
  rcases hr : m w with ⟨r, w'⟩
  cases r with
  | error e => exact ⟨d, rfl⟩
  | ok b => exact ⟨b, d, rfl, EnvExt.refl _ _, rfl, rfl⟩

theorem same {m : M α} (h : Blind m) : Sim own d SameRes m m := (blind h).mono fun _ _ _ _ h => h.1

theorem bindBlind {Q : γ → δ → Dicts → Prop} {m : M α} {f : α → M γ} {f' : α → M δ} (hm : Blind m)
    (hf : ∀ a, Sim own d Q (f a) (f' a)) : Sim own d Q (m >>= f) (m >>= f') :=
  (blind hm).bind fun a b d' _ h => by
    obtain ⟨rfl, rfl⟩ := h
    exact hf a

theorem map {R : α → β → Dicts → Prop} {Q : γ → β → Dicts → Prop} {m : M α} {m' : M β} (f : α → γ) (h : Sim own d R m m')
    (hq : ∀ a b d', EnvExt own d d' → R a b d' → Q (f a) b d') : Sim own d Q (f <$> m) m' := by
  have e : f <$> m = m >>= fun x => Pure.pure (f x) := rfl
  have e' : m' = m' >>= Pure.pure := by
    funext w
    show m' w = M.bind m' Pure.pure w
    unfold M.bind
    rcases m' w with ⟨r, w'⟩
    cases r <;> rfl
  rw [e, e']
  exact h.bind fun a b d' hx hR => pure (hq _ _ _ hx hR)

theorem mapBlind {Q : γ → α → Dicts → Prop} {m : M α} (f : α → γ) (h : Blind m) (hq : ∀ a, Q (f a) a d) : Sim own d Q (f <$> m) m :=
  map f (blind h) fun a b d' _ h => by
    obtain ⟨rfl, rfl⟩ := h
    exact hq a

theorem forList {f f' : α → M β} {l : List α} (h : ∀ x ∈ l, ∀ d', EnvExt own d d' → Sim own d' SameRes (f x) (f' x)) :
    Sim own d SameRes (M.forList f l) (M.forList f' l) := by
  induction l generalizing d with
  | nil => exact pure rfl
  | cons x xs ih =>
    refine (h x (List.mem_cons_self ..) d (EnvExt.refl _ _)).bind fun a b d' hx hab => ?_
    obtain rfl := hab
    refine (ih fun y hy d2 h2 => h y (List.mem_cons_of_mem _ hy) d2 (hx.trans h2)).bind fun as bs d2 hx2 hab => ?_
    obtain rfl := hab
    exact pure rfl

theorem combos_length {ss : List Slot} : ∀ c ∈ combos ss, c.1.length = ss.length := by
  induction ss with
  | nil =>
    intro c hc
    simp only [combos, List.mem_singleton] at hc
    subst hc
    rfl
  | cons s ss ih =>
    intro c hc
    simp only [combos, List.mem_flatMap, List.mem_map] at hc
    obtain ⟨o, _, c', hc', rfl⟩ := hc
    simp [ih c' hc']

theorem combos_head_length {ss : List Slot} (h : ss.any Slot.isHard = false) : ((combos ss).headD ([], 1)).1.length = ss.length := by
  have hne : combos ss ≠ [] := by
    induction ss with
    | nil => simp [combos]
    | cons s ss ih =>
      rw [List.any_cons, Bool.or_eq_false_iff] at h
      cases s with
      | hard cs => cases h.1
      | easy o => simpa [combos, Slot.choices] using ih h.2
  obtain ⟨c, cs, hc⟩ := List.exists_cons_of_ne_nil hne
  have := combos_length (ss := ss) c (by rw [hc]; exact List.mem_cons_self ..)
  rw [hc]
  exact this

theorem bindForList {Q : γ → δ → Dicts → Prop} {h : α → M β} {f : List β → M γ} {f' : List β → M δ} {l : List α} (hm : ∀ x, Blind (h x))
    (hf : ∀ a : List β, a.length = l.length → Sim own d Q (f a) (f' a)) : Sim own d Q (M.forList h l >>= f) (M.forList h l >>= f') := by
  induction l generalizing f f' with
  | nil =>
    have e : ∀ {ε : Type} (g : List β → M ε), M.forList h [] >>= g = g [] := fun g => rfl
    rw [e, e]
    exact hf [] rfl
  | cons x xs ih =>
    have e : ∀ {ε : Type} (g : List β → M ε), M.forList h (x :: xs) >>= g = h x >>= fun y => M.forList h xs >>= fun ys => g (y :: ys) := by
      intro ε g
      funext w
      show M.bind (M.bind (h x) fun y => M.bind (M.forList h xs) fun ys => M.pure (y :: ys)) g w =
        M.bind (h x) (fun y => M.bind (M.forList h xs) fun ys => g (y :: ys)) w
      unfold M.bind
      rcases h x w with ⟨r, w'⟩
      cases r with
      | error e => rfl
      | ok y =>
        dsimp only
        rcases M.forList h xs w' with ⟨r, w''⟩
        cases r <;> rfl
    rw [e, e]
    exact bindBlind (hm x) fun y => ih fun ys hy => hf (y :: ys) (by simp [hy])

theorem castCall {f f' : List Obj → M (Option Obj)} {args : List (Option Ty × Obj)}
    (h : ∀ os : List Obj, os.length = args.length → ∀ d', EnvExt own d d' → Sim own d' SameRes (f os) (f' os)) :
    Sim own d SameRes (PythonDice.castCall f args) (PythonDice.castCall f' args) := by
  unfold PythonDice.castCall
  by_cases ha : args.any castAborts = true
  · rw [if_pos ha, if_pos ha]
    exact pure rfl
  · rw [if_neg ha, if_neg ha]
    refine bindForList (fun a => Blind.castSlot a.1 a.2) fun slots hl => ?_
    by_cases hh : slots.any Slot.isHard = true
    · rw [if_pos hh, if_pos hh]
      refine Sim.bind (R := SameRes) (forList fun c hc d' hx => ?_) fun res res' d' hx hr => ?_
      · refine (h c.1 (by rw [combos_length c hc, hl]) d' hx).bind fun a b d2 _ hab => ?_
        obtain rfl := hab
        exact pure rfl
      · obtain rfl := hr
        exact bindBlind (Blind.ofLimited _) fun r => pure rfl
    · rw [if_neg hh, if_neg hh]
      exact h _ (by rw [combos_head_length (by simpa using hh), hl]) d (EnvExt.refl _ _)

theorem depthCall {m m' : M (Option Obj)} (h : Sim own d SameRes m m') : Sim own d SameRes (PythonDice.depthCall m) (PythonDice.depthCall m') := by
  unfold PythonDice.depthCall
  refine bindBlind Blind.settings fun st => ?_
  split
  · split
    · exact pure rfl
    · exact bindBlind (Blind.modify fun _ _ => rfl) fun _ => pure rfl
  · refine bindBlind (Blind.modify fun _ _ => rfl) fun _ => h.bind fun a b d' _ hab => ?_
    obtain rfl := hab
    exact bindBlind (Blind.modify fun _ _ => rfl) fun _ => pure rfl

theorem fnCall {f f' : List Obj → M (Option Obj)} {args : List (Option Ty × Obj)}
    (h : ∀ os : List Obj, os.length = args.length → ∀ d', EnvExt own d d' → Sim own d' SameRes (f os) (f' os)) :
    Sim own d SameRes (PythonDice.fnCall f args) (PythonDice.fnCall f' args) := depthCall (castCall h)

end Sim

end PythonDice
