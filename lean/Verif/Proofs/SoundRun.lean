import Verif.Proofs.Zeros

/-!
# Programs make dice in lowest terms

Everything is said of two things at once: of the form of dice, which is always right, and (`true`) of their weights, which are right as long as
there was no warning.
-/

set_option linter.unusedVariables false

namespace PythonDice
open Spec Compiler

/-- If it is a die, it is as it should be. -/
def SoundObj (b : Bool) : Obj → Prop
  | .rv d => SoundDie b d
  | _ => True

/-- All dice remembered, all dice output and all dice in dictionaries are as they should be. -/
structure SoundWorld (b : Bool) (w : World) : Prop where
  memo : ∀ x ∈ w.memo, SoundDie b x.2
  outs : ∀ x ∈ w.outs, SoundObj b x.1
  dicts : ∀ d ∈ w.dicts, ∀ x ∈ d, SoundObj b x.2

/-- At most as much is asked. -/
abbrev Weaker (c b : Bool) : Prop := c = true → b = true

theorem SoundDie.mono {b c : Bool} (hc : Weaker c b) {d : RV ℤ} (h : SoundDie b d) : SoundDie c d := ⟨h.len, h.sorted, h.nonempty, fun e => h.full (hc e)⟩

theorem SoundObj.mono {b c : Bool} (hc : Weaker c b) {o : Obj} (h : SoundObj b o) : SoundObj c o := by
  cases o with
  | rv d => exact SoundDie.mono hc h
  | _ => trivial

/-- Results that may be missing. -/
def SoundOpt (b : Bool) (o : Option Obj) : Prop := ∀ x, o = some x → SoundObj b x

/-- Lists of objects. -/
def SoundObjs (b : Bool) (l : List Obj) : Prop := ∀ o ∈ l, SoundObj b o

theorem SoundObjs.mono {b c : Bool} (hc : Weaker c b) {l : List Obj} (h : SoundObjs b l) : SoundObjs c l := fun o ho => (h o ho).mono hc

/-- Nothing is said. -/
def Anyhow {α : Type} (_ : Bool) (_ : α) : Prop := True

/-- A computation that makes dice as they should be, if it does not warn; and then it does not matter, either, whether outcomes of weight 0 are
to be dropped. -/
def Sound {α : Type} (b : Bool) (P : Bool → α → Prop) (m : M α) : Prop :=
  ∀ w, SoundWorld false w → w.warns ≤ (m w).2.warns ∧ (∀ c : Bool, (c = true → b = true ∧ (m w).2.warns = w.warns ∧ SoundWorld true w) →
    SoundWorld c (m w).2 ∧ ∀ x, (m w).1 = .ok x → P c x) ∧
    (b = true → (m w).2.warns = w.warns → SoundWorld true w → ∀ z, ∃ z', m (w.setZeros z) = ((m w).1, (m w).2.setZeros z'))

theorem lookup_pair_mem {α β : Type} [BEq α] [LawfulBEq α] {l : List (α × β)} {k : α} {v : β} (h : l.lookup k = some v) : (k, v) ∈ l := by
  induction l with
  | nil => cases h
  | cons p l ih =>
    obtain ⟨k', v'⟩ := p
    rw [List.lookup_cons] at h
    split at h
    · cases h
      rename_i e
      rw [eq_of_beq e]
      exact List.mem_cons_self
    · exact List.mem_cons_of_mem _ (ih h)

namespace Sound
variable {α β γ : Type} {b : Bool}

theorem mono {P : Bool → α → Prop} {m : M α} {c : Bool} (hc : Weaker c b) (h : Sound b P m) : Sound c P m := fun w hw =>
  ⟨(h w hw).1, (fun c' hc' => (h w hw).2.1 c' fun e => ⟨hc (hc' e).1, (hc' e).2⟩), fun e => (h w hw).2.2 (hc e)⟩

/-- Computations that leave dice alone. -/
theorem keep {P : Bool → α → Prop} {m : M α} (h : ∀ w, (m w).2.warns = w.warns ∧ (m w).2.memo = w.memo ∧ (m w).2.outs = w.outs ∧ (m w).2.dicts = w.dicts)
    (e : ∀ w x, (m w).1 = .ok x → ∀ c, Weaker c b → P c x)
    (hz : b = true → ∀ w z, ∃ z', m (w.setZeros z) = ((m w).1, (m w).2.setZeros z')) : Sound b P m := by
  intro w hw
  obtain ⟨h1, h2, h3, h4⟩ := h w
  refine ⟨h1.ge, (fun c hc => ⟨?_, fun x hx => e w x hx c fun hb => (hc hb).1⟩), fun e _ _ => hz e w⟩
  have hw' : SoundWorld c w := by
    cases c with
    | false => exact hw
    | true => exact (hc rfl).2.2
  exact ⟨by rw [h2]; exact hw'.memo, by rw [h3]; exact hw'.outs, by rw [h4]; exact hw'.dicts⟩

theorem pure {P : Bool → α → Prop} {x : α} (h : ∀ c, Weaker c b → P c x) : Sound b P (Pure.pure x : M α) :=
  keep (fun _ => ⟨rfl, rfl, rfl, rfl⟩) (fun _ y hy => by cases hy; exact h) fun _ w z => ⟨z, rfl⟩

theorem throw {P : Bool → α → Prop} (e : Err) : Sound b P (M.throw e : M α) :=
  keep (fun _ => ⟨rfl, rfl, rfl, rfl⟩) (fun _ y hy => by cases hy) fun _ w z => ⟨z, rfl⟩

theorem ofSettings {P : Bool → α → Prop} {f : Settings → Except Err α} (h : ∀ st x, f st = .ok x → ∀ c, Weaker c b → P c x)
    (hz : b = true → ∀ st z, f (Settings.setZeros z st) = f st) : Sound b P (M.ofSettings f) :=
  keep (fun _ => ⟨rfl, rfl, rfl, rfl⟩) (fun w x hx => h w.settings x hx) fun hb w z => ⟨z, by
    change (f (w.settings.setZeros z), w.setZeros z) = (f w.settings, w.setZeros z)
    rw [hz hb]⟩

theorem ofLimited {P : Bool → α → Prop} {f : Settings → Except Err (α × Bool)}
    (h : ∀ st x t, f st = .ok (x, t) → ∀ c, Weaker c b → (c = true → t = false) → P c x)
    (hz : b = true → ∀ st z, f (Settings.setZeros z st) = f st) : Sound b P (M.ofLimited f) := by
  intro w hw
  unfold M.ofLimited
  have hz' : b = true → ∀ z, f (w.setZeros z).settings = f w.settings := fun hb z => hz hb w.settings z
  have hw' : ∀ c : Bool, (c = true → b = true ∧ w.warns = w.warns ∧ SoundWorld true w) → SoundWorld c w := by
    intro c hc
    cases c with
    | false => exact hw
    | true => exact (hc rfl).2.2
  rcases hf : f w.settings with e | ⟨x, _ | _⟩
  · exact ⟨le_rfl, (fun c hc => ⟨hw' c hc, fun y hy => by cases hy⟩), fun hb _ _ z => ⟨z, by rw [hz' hb, hf]⟩⟩
  · refine ⟨le_rfl, (fun c hc => ⟨hw' c hc, fun y hy => ?_⟩), fun hb _ _ z => ⟨z, by rw [hz' hb, hf]; rfl⟩⟩
    cases hy
    exact h _ _ _ hf c (fun e => (hc e).1) fun _ => rfl
  · refine ⟨Nat.le_succ _, (fun c hc => ?_), fun hb hn => absurd hn (Nat.succ_ne_self _)⟩
    cases c with
    | true => exact absurd (hc rfl).2.1 (Nat.succ_ne_self _)
    | false =>
      refine ⟨⟨hw.memo, hw.outs, hw.dicts⟩, fun y hy => ?_⟩
      cases hy
      exact h _ _ _ hf false (fun e => by cases e) fun e => by cases e

theorem bind {P : Bool → α → Prop} {Q : Bool → β → Prop} {m : M α} {f : α → M β} (hm : Sound b P m)
    (hf : ∀ x c, Weaker c b → P c x → Sound c Q (f x)) : Sound b Q (m >>= f) := by
  intro w hw
  obtain ⟨h1, h2, hz⟩ := hm w hw
  simp only [M.bind_apply]
  rcases hr : m w with ⟨r, v⟩
  rw [hr] at h1 h2 hz
  dsimp only at h1 h2 hz
  cases r with
  | error e =>
    refine ⟨h1, (fun c hc => ⟨(h2 c hc).1, fun y hy => by cases hy⟩), fun hb hn hs z => ?_⟩
    obtain ⟨z', e'⟩ := hz hb hn hs z
    exact ⟨z', by rw [e']⟩
  | ok x =>
    dsimp only
    obtain ⟨h3, h4⟩ := h2 false fun e => by cases e
    obtain ⟨h5, h6, _⟩ := hf x false (fun e => by cases e) (h4 x rfl) v h3
    refine ⟨h1.trans h5, (fun c hc => ?_), fun hb hn hs z => ?_⟩
    · cases c with
      | false => exact h6 false fun e => by cases e
      | true =>
        obtain ⟨g1, g2, g3⟩ := hc rfl
        obtain ⟨g4, g5⟩ := h2 true fun _ => ⟨g1, by omega, g3⟩
        exact (hf x true (fun _ => g1) (g5 x rfl) v h3).2.1 true fun _ => ⟨rfl, by omega, g4⟩
    · obtain ⟨g4, g5⟩ := h2 true fun _ => ⟨hb, by omega, hs⟩
      obtain ⟨z1, e1⟩ := hz hb (by omega) hs z
      obtain ⟨z2, e2⟩ := (hf x true (fun _ => hb) (g5 x rfl) v h3).2.2 rfl (by omega) g4 z1
      exact ⟨z2, by rw [e1]; exact e2⟩

theorem map {P : Bool → α → Prop} {Q : Bool → β → Prop} {m : M α} {f : α → β} (hm : Sound b P m) (h : ∀ x c, P c x → Q c (f x)) :
    Sound b Q (f <$> m) := by
  have e : f <$> m = m >>= fun x => Pure.pure (f x) := rfl
  rw [e]
  intro w hw
  obtain ⟨h1, h2, hz⟩ := hm w hw
  simp only [M.bind_apply]
  rcases hr : m w with ⟨r, v⟩
  rw [hr] at h1 h2 hz
  dsimp only at h1 h2 hz
  cases r with
  | error e =>
    refine ⟨h1, (fun c hc => ⟨(h2 c hc).1, fun y hy => by cases hy⟩), fun hb hn hs z => ?_⟩
    obtain ⟨z', e'⟩ := hz hb hn hs z
    exact ⟨z', by rw [e']⟩
  | ok x =>
    refine ⟨h1, (fun c hc => ⟨(h2 c hc).1, fun y hy => ?_⟩), fun hb hn hs z => ?_⟩
    rotate_left
    · obtain ⟨z', e'⟩ := hz hb hn hs z
      exact ⟨z', by rw [e']; rfl⟩
    cases hy
    exact h x c ((h2 c hc).2 x rfl)

/-- Computations without dice. -/
theorem plain {m : M α} {P : Bool → α → Prop} (h : ∀ w, (m w).2 = w) (hz : ∀ w z, (m (w.setZeros z)).1 = (m w).1) (hp : ∀ c x, P c x) :
    Sound b P m :=
  keep (fun w => by rw [h w]; exact ⟨rfl, rfl, rfl, rfl⟩) (fun _ x _ c _ => hp c x) fun _ w z => ⟨z, by
    rw [h w]
    exact Prod.ext (hz w z) (h _)⟩

theorem num {m : M α} {f : α → ℤ} (h : ∀ w, (m w).2 = w) (hz : ∀ w z, (m (w.setZeros z)).1 = (m w).1) :
    Sound b SoundObj ((fun x => Obj.num (f x)) <$> m) :=
  map (P := Anyhow) (plain h hz fun _ _ => trivial) fun _ _ _ => trivial

/-- Looking at the settings. -/
theorem withSettings {Q : Bool → β → Prop} {f : Settings → M β} (h : ∀ st, Sound b Q (f st)) (hz : ∀ st z, f (Settings.setZeros z st) = f st) :
    Sound b Q (M.settings >>= f) := by
  intro w hw
  obtain ⟨h1, h2, h3⟩ := h w.settings w hw
  refine ⟨h1, h2, fun hb hn hs z => ?_⟩
  obtain ⟨z', e⟩ := h3 hb hn hs z
  refine ⟨z', ?_⟩
  change f (w.settings.setZeros z) (w.setZeros z) = _
  rw [hz]
  exact e

theorem forList {P : Bool → β → Prop} (hP : ∀ c c' x, Weaker c' c → P c x → P c' x) {f : α → M β} {l : List α} (hf : ∀ x ∈ l, ∀ c, Weaker c b → Sound c P (f x)) :
    Sound b (fun c ys => ∀ y ∈ ys, P c y) (M.forList f l) := by
  induction l generalizing b with
  | nil => exact pure fun c _ y hy => by cases hy
  | cons x xs ih =>
    refine (hf x List.mem_cons_self b id).bind fun y c hc hy => ?_
    refine (ih fun z hz c' hc' => hf z (List.mem_cons_of_mem _ hz) c' fun e => hc (hc' e)).bind fun ys c' hc' hys => ?_
    refine pure fun c2 hc2 z hz => ?_
    rcases List.mem_cons.1 hz with rfl | hz
    · exact hP _ _ _ (fun e => hc' (hc2 e)) hy
    · exact hP _ _ _ hc2 (hys z hz)

/-- An argument: its values are as they should be, and their weights, too. -/
def _root_.PythonDice.SoundSlot (b : Bool) (s : Slot) : Prop := ∀ x ∈ s.choices, SoundObj b x.1 ∧ (b = true → 0 < x.2)

theorem _root_.PythonDice.SoundSlot.mono {b c : Bool} (hc : Weaker c b) {s : Slot} (h : SoundSlot b s) : SoundSlot c s := fun x hx =>
  ⟨(h x hx).1.mono hc, fun e => (h x hx).2 (hc e)⟩

theorem slot_easy {o : Obj} (h : SoundObj b o) : SoundSlot b (.easy o) := by
  intro x hx
  rw [List.mem_singleton.1 hx]
  exact ⟨h, fun _ => Nat.one_pos⟩

theorem fromConst (n : ℤ) : Sound b SoundDie (M.ofSettings fun st => RV.fromConst st n) :=
  ofSettings (fun st x hx c _ => SoundDie.fromConst hx) fun _ st z => Zeros.fromConst

theorem fromSeq (l : List ℤ) : Sound b SoundDie (M.ofSettings fun st => RV.fromSeq st l) :=
  ofSettings (fun st x hx c _ => SoundDie.fromSeq hx) fun _ st z => Zeros.fromSeq

theorem castSlot (ty : Option Ty) {o : Obj} (ho : SoundObj b o) : Sound b SoundSlot (PythonDice.castSlot ty o) := by
  unfold PythonDice.castSlot
  split
  · exact pure fun c _ => slot_easy trivial
  · refine pure fun c hc x hx => ?_
    obtain ⟨y, hy, rfl⟩ := List.mem_map.1 hx
    exact ⟨trivial, fun e => SoundDie.pairs_pos (ho.mono hc) e y hy⟩
  · exact pure fun c _ => slot_easy trivial
  · refine pure fun c hc x hx => ?_
    obtain ⟨y, hy, rfl⟩ := List.mem_map.1 hx
    refine ⟨trivial, fun e => ?_⟩
    subst e
    exact SoundDie.expanded_pos (ho.mono hc) y hy
  · exact (fromConst _).bind fun d c _ hd => pure fun c' hc' => slot_easy (SoundDie.mono hc' hd)
  · exact (fromSeq _).bind fun d c _ hd => pure fun c' hc' => slot_easy (SoundDie.mono hc' hd)
  · exact pure fun c hc => slot_easy (ho.mono hc)

theorem combos_sound {ss : List Slot} (h : ∀ s ∈ ss, SoundSlot b s) : ∀ x ∈ PythonDice.combos ss, SoundObjs b x.1 ∧ (b = true → 0 < x.2) := by
  induction ss with
  | nil =>
    intro x hx
    rw [List.mem_singleton.1 hx]
    exact ⟨(fun o ho => by cases ho), fun _ => Nat.one_pos⟩
  | cons s ss ih =>
    intro x hx
    rw [PythonDice.combos, List.mem_flatMap] at hx
    obtain ⟨y, hy, hx⟩ := hx
    obtain ⟨z, hz, rfl⟩ := List.mem_map.1 hx
    obtain ⟨h1, h2⟩ := h s List.mem_cons_self y hy
    obtain ⟨h3, h4⟩ := ih (fun t ht => h t (List.mem_cons_of_mem _ ht)) z hz
    refine ⟨fun o ho => ?_, fun e => Nat.mul_pos (h2 e) (h4 e)⟩
    rcases List.mem_cons.1 ho with rfl | ho
    · exact h1
    · exact h3 o ho

theorem resultEntry_sound {o : Option Obj} (h : SoundOpt b o) : SoundEntry b (resultEntry o) := by
  cases o with
  | none => trivial
  | some o =>
    cases o with
    | rv d => exact h _ rfl
    | _ => trivial

theorem entry_mono {c : Bool} (hc : Weaker c b) {e : RV.Entry ℤ} (h : SoundEntry b e) : SoundEntry c e := by
  cases e with
  | rv d => exact SoundDie.mono hc h
  | _ => trivial

theorem opt_mono {c : Bool} (hc : Weaker c b) {o : Option Obj} (h : SoundOpt b o) : SoundOpt c o := fun x hx => (h x hx).mono hc

theorem opt_some {o : Obj} (h : SoundObj b o) : SoundOpt b (some o) := fun x hx => by cases hx; exact h

theorem castCall {f : List Obj → M (Option Obj)} (hf : ∀ l c, Weaker c b → SoundObjs c l → Sound c SoundOpt (f l)) {args : List (Option Ty × Obj)}
    (ha : ∀ a ∈ args, SoundObj b a.2) : Sound b SoundOpt (PythonDice.castCall f args) := by
  unfold PythonDice.castCall
  split
  · exact pure fun c _ => opt_some trivial
  · refine (forList (P := SoundSlot) (fun _ _ _ h hx => hx.mono h) fun a ham c hc => castSlot a.1 ((ha a ham).mono hc)).bind fun slots c hc hs => ?_
    split
    · have hcs := combos_sound hs
      refine (forList (P := fun c (x : RV.Entry ℤ × ℕ) => SoundEntry c x.1 ∧ (c = true → 0 < x.2))
        (fun _ _ _ h hx => ⟨entry_mono h hx.1, fun e => hx.2 (h e)⟩) fun x hx c' hc' => ?_).bind fun res c' hc' hr => ?_
      · refine (hf x.1 c' (fun e => hc (hc' e)) ((hcs x hx).1.mono hc')).bind fun v c2 hc2 hv => pure fun c3 hc3 => ⟨resultEntry_sound (opt_mono hc3 hv), fun e => ?_⟩
        exact (hcs x hx).2 (hc' (hc2 (hc3 e)))
      · refine (ofLimited (P := fun c (r : Option (RV ℤ)) => ∀ d, r = some d → SoundDie c d) (fun st r t h c2 hc2 ht d hd => ?_) fun hb st z => ?_).bind
          fun r c2 hc2 hd => ?_
        · subst hd
          refine SoundDie.fromRvs (fun e he => ?_) (fun hb x hx => ?_) h ht
          · obtain ⟨y, hy, rfl⟩ := List.mem_map.1 he
            exact entry_mono hc2 (hr y hy).1
          · obtain ⟨y, hy, rfl⟩ := List.mem_map.1 hx
            exact_mod_cast (hr y hy).2 (hc2 hb)
        · subst hb
          refine Zeros.fromRvs (fun e he => ?_) fun x hx => ?_
          · obtain ⟨y, hy, rfl⟩ := List.mem_map.1 he
            exact (hr y hy).1
          · obtain ⟨y, hy, rfl⟩ := List.mem_map.1 hx
            exact_mod_cast (hr y hy).2 rfl
        · refine pure fun c3 hc3 => opt_some ?_
          cases r with
          | none => trivial
          | some d => exact SoundDie.mono hc3 (hd d rfl)
    · refine hf _ c hc ?_
      have hcs := combos_sound hs
      cases hcm : combos slots with
      | nil => exact fun o ho => by cases ho
      | cons x xs =>
        rw [hcm] at hcs
        exact (hcs x List.mem_cons_self).1

theorem getD_sound {o : Option Obj} (h : SoundOpt b o) : SoundObj b (o.getD (.blank false)) := by
  cases o with
  | none => trivial
  | some x => exact h x rfl

theorem orBlank {m : M (Option Obj)} (hm : Sound b SoundOpt m) : Sound b SoundObj (PythonDice.orBlank m) :=
  hm.bind fun o c _ ho => pure fun c' hc' => (getD_sound ho).mono hc'

/-! ## Operators -/

theorem neg {d : RV ℤ} (h : SoundDie b d) : Sound b SoundObj (Obj.rv <$> M.ofSettings fun st => RV.neg st d) :=
  map (P := SoundDie) (ofSettings (fun st x hx c hc => SoundDie.mapVals (h.mono hc) hx) fun hb st z => Zeros.mapVals (SoundDie.cast_pos h hb)) fun x c hx => hx

theorem negObj {o : Obj} (h : SoundObj b o) : Sound b SoundObj (PythonDice.negObj o) := by
  cases o with
  | rv d => exact neg h
  | _ => exact pure fun _ _ => trivial

theorem blankR_sound (op : BinOp) {o : Obj} (h : SoundObj b o) (s : Bool) : SoundObj b (PythonDice.blankR op o s) := by
  cases op <;> cases s <;> first
    | exact trivial
    | exact h
    | (cases o <;> first | exact trivial | exact h)

theorem blankL (op : BinOp) (s : Bool) {o : Obj} (h : SoundObj b o) : Sound b SoundObj (PythonDice.blankL op s o) := by
  unfold PythonDice.blankL
  split
  · split
    · exact pure fun _ _ => trivial
    · exact negObj h
  · exact pure fun c hc => (blankR_sound _ h _).mono hc

theorem numBinop (op : BinOp) (x : ℤ) {o : Obj} (h : SoundObj b o) : Sound b SoundObj (PythonDice.numBinop op x o) := by
  unfold PythonDice.numBinop
  split
  · exact num (fun _ => rfl) fun _ _ => rfl
  · split
    · exact pure fun _ _ => trivial
    · exact num (fun _ => rfl) fun _ _ => rfl
  · split
    · exact map (P := SoundDie) (ofSettings (fun st x hx c hc => SoundDie.mapVals (SoundDie.mono hc h) hx) fun hb st z => Zeros.mapVals (SoundDie.cast_pos h hb)) fun x c hx => hx
    · exact map (P := SoundDie) (ofSettings (fun st x hx c hc => SoundDie.mapVals (SoundDie.mono hc h) hx) fun hb st z => Zeros.mapVals (SoundDie.cast_pos h hb)) fun x c hx => hx
  · exact pure fun c _ => blankR_sound (o := .num x) _ trivial _

theorem binop (op : BinOp) {a o : Obj} (ha : SoundObj b a) (ho : SoundObj b o) : Sound b SoundObj (PythonDice.binop op a o) := by
  unfold PythonDice.binop
  split
  · exact numBinop _ _ ho
  · split
    · exact pure fun _ _ => trivial
    · exact num (fun _ => rfl) fun _ _ => rfl
  · split
    · exact pure fun _ _ => trivial
    · exact num (fun _ => rfl) fun _ _ => rfl
  · exact numBinop _ _ ho
  · exact map (P := SoundDie) (ofSettings (fun st x hx c hc => SoundDie.mapVals (SoundDie.mono hc ha) hx) fun hb st z => Zeros.mapVals (SoundDie.cast_pos ha hb)) fun x c hx => hx
  · exact map (P := SoundDie) (ofSettings (fun st x hx c hc => SoundDie.mapVals (SoundDie.mono hc ha) hx) fun hb st z => Zeros.mapVals (SoundDie.cast_pos ha hb)) fun x c hx => hx
  · exact map (P := SoundDie) (ofLimited (fun st x t hx c hc ht => SoundDie.convolve (SoundDie.mono hc ha) (SoundDie.mono hc ho) hx ht)
      fun hb st z => Zeros.convolve (SoundDie.pairs_pos ha hb) (SoundDie.pairs_pos ho hb)) fun x c hx => hx
  · exact pure fun c hc => (blankR_sound _ ha _).mono hc
  · exact blankL _ _ ho

theorem negOp {o : Obj} (h : SoundObj b o) : Sound b SoundObj (PythonDice.negOp o) := by
  cases o with
  | rv d => exact neg h
  | seq s => exact throw _
  | _ => exact pure fun _ _ => trivial

theorem posOp {o : Obj} (h : SoundObj b o) : Sound b SoundObj (PythonDice.posOp o) := by
  cases o with
  | seq s => exact throw _
  | rv d => exact pure fun c hc => h.mono hc
  | _ => exact pure fun _ _ => trivial

theorem myInvert (o : Obj) : Sound b SoundObj (PythonDice.myInvert o) := by
  cases o with
  | rv d => exact map (P := SoundDie) (ofSettings (fun st x hx c _ => SoundDie.invert hx) fun _ st z => Zeros.invert) fun x c hx => hx
  | blank s => exact pure fun _ _ => by cases s <;> trivial
  | _ => exact pure fun _ _ => trivial

theorem invertOp (o : Obj) : Sound b SoundObj (PythonDice.invertOp o) := by
  cases o with
  | num n => exact pure fun _ _ => trivial
  | _ => exact myInvert _

theorem lenOp (o : Obj) : Sound b SoundObj (PythonDice.lenOp o) := by
  cases o with
  | num n => exact throw _
  | _ => exact pure fun _ _ => trivial

theorem truthOp (o : Obj) : Sound b Anyhow (PythonDice.truthOp o) := by
  cases o <;> first | exact pure fun _ _ => trivial | exact throw _

theorem iterOp (o : Obj) : Sound b Anyhow (PythonDice.iterOp o) := by
  cases o <;> first | exact pure fun _ _ => trivial | exact throw _

theorem myAnd {a o : Obj} (ha : SoundObj b a) (ho : SoundObj b o) : Sound b SoundObj (PythonDice.myAnd a o) := by
  unfold PythonDice.myAnd
  split
  · exact pure fun _ _ => trivial
  · exact binop _ ha ho

theorem myOr {a o : Obj} (ha : SoundObj b a) (ho : SoundObj b o) : Sound b SoundObj (PythonDice.myOr a o) := by
  unfold PythonDice.myOr
  split
  · exact pure fun _ _ => trivial
  · exact binop _ ha ho

theorem rvRmatmul (l : List ℤ) {r : RV ℤ} (hr : SoundDie b r) : Sound b SoundObj (PythonDice.rvRmatmul l r) := by
  unfold PythonDice.rvRmatmul
  split
  · refine (ofLimited (P := fun c (q : Option (RV ℤ)) => ∀ d, q = some d → SoundDie c d) (fun st q t h c hc ht d hd => ?_) fun hb st z => ?_).bind
      fun q c hc hq => ?_
    · subst hd
      exact SoundDie.kth (fun e => hr.source (hc e)) h ht
    · exact Zeros.kth (hr.source hb)
    · refine pure fun c' hc' => ?_
      cases q with
      | none => trivial
      | some d => exact SoundDie.mono hc' (hq d rfl)
  · refine (castCall (fun l c _ _ => ?_) fun a ha => ?_).bind fun o c _ ho => pure fun c' hc' => (getD_sound ho).mono hc'
    · unfold sumAtFn
      split
      · exact pure fun _ _ => opt_some trivial
      · exact throw _
    · rcases List.mem_cons.1 ha with rfl | ha
      · exact hr
      · rw [List.mem_singleton.1 ha]
        trivial

theorem matmul (a : Obj) {o : Obj} (ho : SoundObj b o) : Sound b SoundObj (PythonDice.matmul a o) := by
  have hb : ∀ s t, SoundObj b (blankRmatmul s t) := fun s t => by cases s <;> cases t <;> trivial
  unfold PythonDice.matmul
  split
  · exact throw _
  · exact pure fun _ _ => trivial
  · exact rvRmatmul _ ho
  · exact pure fun c hc => (hb _ _).mono hc
  · exact (ofSettings (P := Anyhow) (fun _ _ _ _ _ => trivial) fun _ _ _ => rfl).bind fun _ _ _ _ => pure fun _ _ => trivial
  · exact pure fun _ _ => trivial
  · exact rvRmatmul _ ho
  · exact pure fun c hc => (hb _ _).mono hc
  · exact throw _
  · exact throw _

theorem myMatmul (a : Obj) {o : Obj} (ho : SoundObj b o) : Sound b SoundObj (PythonDice.myMatmul a o) := by
  unfold PythonDice.myMatmul
  split
  · split
    · exact num (fun _ => rfl) fun _ _ => rfl
    · exact pure fun _ _ => trivial
  · exact matmul _ ho

theorem myRange (a o : Obj) : Sound b SoundObj (PythonDice.myRange a o) := by
  unfold PythonDice.myRange
  split
  · exact pure fun _ _ => trivial
  · exact throw _

/-! ## Rolling -/

theorem addM {x y : RV ℤ} (hx : SoundDie b x) (hy : SoundDie b y) : Sound b SoundDie (PythonDice.addM x y) :=
  ofLimited (fun st z t hz c hc ht => SoundDie.convolve (hx.mono hc) (hy.mono hc) hz ht) fun hb st z => Zeros.convolve (hx.pairs_pos hb) (hy.pairs_pos hb)

theorem memoGet (n : ℕ) (d : RV ℤ) : Sound b (fun c (o : Option (RV ℤ)) => ∀ r, o = some r → SoundDie c r) (PythonDice.memoGet n d) := by
  intro w hw
  refine ⟨le_rfl, (fun c hc => ?_), fun _ _ _ z => ⟨z, rfl⟩⟩
  have hw' : SoundWorld c w := by
    cases c with
    | false => exact hw
    | true => exact (hc rfl).2.2
  refine ⟨hw', fun o ho r hr => ?_⟩
  cases ho
  exact hw'.memo _ (lookup_pair_mem hr)

theorem memoSet (n : ℕ) (d : RV ℤ) {r : RV ℤ} (hr : SoundDie b r) : Sound b Anyhow (PythonDice.memoSet n d r) := by
  intro w hw
  refine ⟨le_rfl, (fun c hc => ?_), fun _ _ _ z => ⟨z, rfl⟩⟩
  have hw' : SoundWorld c w := by
    cases c with
    | false => exact hw
    | true => exact (hc rfl).2.2
  refine ⟨⟨fun x hx => ?_, hw'.outs, hw'.dicts⟩, fun _ _ => trivial⟩
  rcases List.mem_cons.1 hx with rfl | hx
  · exact hr.mono fun e => (hc e).1
  · exact hw'.memo x hx

theorem rollNat (fuel n : ℕ) {d : RV ℤ} (hd : SoundDie b d) : Sound b SoundDie (PythonDice.rollNat fuel n d) := by
  induction fuel generalizing n b with
  | zero => exact throw _
  | succ k ih =>
    unfold PythonDice.rollNat
    split
    · exact fromConst _
    split
    · exact pure fun c hc => hd.mono hc
    refine (memoGet n d).bind fun o c hc ho => ?_
    cases o with
    | some r => exact pure fun c' hc' => (ho r rfl).mono hc'
    | none =>
      dsimp only
      refine (ih (n / 2) (hd.mono hc)).bind fun half c1 h1 hh => ?_
      refine (addM hh hh).bind fun full c2 h2 hf => ?_
      have hd2 : SoundDie c2 d := hd.mono fun e => hc (h1 (h2 e))
      have hodd : Sound c2 SoundDie (addOdd n full d) := by
        unfold addOdd
        split
        · exact addM hf hd2
        · exact pure fun c' hc' => hf.mono hc'
      refine hodd.bind fun full' c3 h3 hf' => ?_
      have hs : SoundDie c3 (full'.setSource n d) := hf'.setSource (hd2.mono h3) n
      exact (memoSet n d hs).bind fun _ c4 h4 _ => pure fun c5 h5 => hs.mono fun e => h4 (h5 e)

theorem rollInt (n : ℤ) {d : RV ℤ} (hd : SoundDie b d) : Sound b SoundDie (PythonDice.rollInt n d) := by
  unfold PythonDice.rollInt
  split
  · exact (rollNat _ _ hd).bind fun r c _ hr => ofSettings (fun st x hx c' hc' => SoundDie.mapVals (hr.mono hc') hx) fun hb st z => Zeros.mapVals (hr.cast_pos hb)
  · exact rollNat _ _ hd

theorem optFromSeq (l : List ℤ) : Sound b (fun c (o : Option (RV ℤ)) => ∀ r, o = some r → SoundDie c r) (some <$> M.ofSettings fun st => RV.fromSeq st l) :=
  map (P := SoundDie) (fromSeq _) fun x c hx r hr => by cases hr; exact hx

theorem asDie {o : Obj} (ho : SoundObj b o) : Sound b (fun c (o : Option (RV ℤ)) => ∀ r, o = some r → SoundDie c r) (PythonDice.asDie o) := by
  unfold PythonDice.asDie
  split
  · split
    · exact optFromSeq _
    · split
      · exact map (P := SoundDie) (fromConst _) fun x c hx r hr => by cases hr; exact hx
      · exact optFromSeq _
  · split
    · exact pure fun c _ r hr => by cases hr
    · exact optFromSeq _
  · exact pure fun c hc r hr => by cases hr; exact SoundDie.mono hc ho
  · exact pure fun c _ r hr => by cases hr

theorem rollRV {n d : RV ℤ} (hn : SoundDie b n) (hd : SoundDie b d) : Sound b SoundObj (PythonDice.rollRV n d) := by
  unfold PythonDice.rollRV
  refine (forList (P := SoundDie) (fun _ _ _ h hx => hx.mono h) fun v _ c hc => rollInt v (hd.mono hc)).bind fun dies c hc hdies => ?_
  refine (ofLimited (P := fun c (r : Option (RV ℤ)) => ∀ q, r = some q → SoundDie c q) (fun st r t h c2 hc2 ht q hq => ?_) fun hb st z => ?_).bind
    fun r c2 hc2 hr => ?_
  · subst hq
    refine SoundDie.fromRvs (fun e he => ?_) (fun hb => (hn.mono hc).cast_pos (hc2 hb)) h ht
    obtain ⟨y, hy, rfl⟩ := List.mem_map.1 he
    exact (hdies y hy).mono hc2
  · subst hb
    refine Zeros.fromRvs (fun e he => ?_) ((hn.mono hc).cast_pos rfl)
    obtain ⟨y, hy, rfl⟩ := List.mem_map.1 he
    exact hdies y hy
  · cases r with
    | none => exact throw _
    | some q => exact pure fun c3 hc3 => SoundDie.mono hc3 ((hr q rfl).setSource (hd.mono fun e => hc (hc2 e)) 1)

theorem roll {n d : Obj} (hn : SoundObj b n) (hd : SoundObj b d) : Sound b SoundObj (PythonDice.roll n d) := by
  unfold PythonDice.roll
  split
  · exact pure fun _ _ => trivial
  · exact pure fun _ _ => trivial
  · refine (asDie hd).bind fun o c hc ho => ?_
    cases o with
    | none => exact pure fun _ _ => trivial
    | some die =>
      have hdie := ho die rfl
      dsimp only
      split
      · exact map (P := SoundDie) (rollInt _ hdie) fun x c hx => hx
      · exact map (P := SoundDie) (rollInt _ hdie) fun x c hx => hx
      · exact rollRV (SoundDie.mono hc hn) hdie
      · exact pure fun _ _ => trivial

theorem roll1 {d : Obj} (hd : SoundObj b d) : Sound b SoundObj (PythonDice.roll1 d) := roll (n := .num 1) trivial hd

/-! ## The function library -/

theorem args1 {t : Option Ty} {a : Obj} (ha : SoundObj b a) : ∀ x ∈ [(t, a)], SoundObj b x.2 := by
  intro x hx
  rw [List.mem_singleton.1 hx]
  exact ha

theorem args2 {t u : Option Ty} {a o : Obj} (ha : SoundObj b a) (ho : SoundObj b o) : ∀ x ∈ [(t, a), (u, o)], SoundObj b x.2 := by
  intro x hx
  rcases List.mem_cons.1 hx with rfl | hx
  · exact ha
  · exact args1 ho x hx

theorem args3 {t u v : Option Ty} {a o p : Obj} (ha : SoundObj b a) (ho : SoundObj b o) (hp : SoundObj b p) :
    ∀ x ∈ [(t, a), (u, o), (v, p)], SoundObj b x.2 := by
  intro x hx
  rcases List.mem_cons.1 hx with rfl | hx
  · exact ha
  · exact args2 ho hp x hx

theorem absolute {a : Obj} (ha : SoundObj b a) : Sound b SoundObj (PythonDice.absolute a) :=
  orBlank (castCall (fun l c _ _ => by unfold absoluteFn; split <;> first | exact pure fun _ _ => opt_some trivial | exact throw _) (args1 ha))

theorem contains {a o : Obj} (ha : SoundObj b a) (ho : SoundObj b o) : Sound b SoundObj (PythonDice.contains a o) :=
  orBlank (castCall (fun l c _ _ => by unfold containsFn; split <;> first | exact pure fun _ _ => opt_some trivial | exact throw _) (args2 ha ho))

theorem countIn {a o : Obj} (ha : SoundObj b a) (ho : SoundObj b o) : Sound b SoundObj (PythonDice.countIn a o) :=
  orBlank (castCall (fun l c _ _ => by unfold countInFn; split <;> first | exact pure fun _ _ => opt_some trivial | exact throw _) (args2 ha ho))

theorem reverse {a : Obj} (ha : SoundObj b a) : Sound b SoundObj (PythonDice.reverse a) :=
  orBlank (castCall (fun l c _ _ => by unfold reverseFn; split <;> first | exact pure fun _ _ => opt_some trivial | exact throw _) (args1 ha))

theorem maximumOf {a : Obj} (ha : SoundObj b a) : Sound b SoundObj (PythonDice.maximumOf a) :=
  orBlank (castCall (fun l c _ _ => by
    unfold maximumOfFn
    split
    · exact (reverse (a := .seq _) trivial).bind fun r c hc hr => (matmul _ hr).bind fun m c' hc' hm => pure fun c2 hc2 => opt_some (hm.mono hc2)
    · exact throw _) (args1 ha))

theorem explodeHelper (depth : ℕ) {n mx d : Obj} (hn : SoundObj b n) (hm : SoundObj b mx) (hd : SoundObj b d) :
    Sound b SoundOpt (PythonDice.explodeHelper depth n mx d) := by
  induction depth generalizing n mx d b with
  | zero =>
    refine castCall (fun l c _ _ => ?_) (args3 hn hm hd)
    split
    · exact pure fun _ _ => opt_some trivial
    · exact throw _
  | succ k ih =>
    refine castCall (fun l c _ hl => ?_) (args3 hn hm hd)
    split
    · rename_i n' m' d'
      have hd' : SoundObj c d' := hl d' (List.mem_cons_of_mem _ (List.mem_cons_of_mem _ List.mem_cons_self))
      split
      · exact (ih (mx := .num m') hd' trivial hd').bind fun r c1 h1 hr => (binop (a := .num n') _ trivial (getD_sound hr)).bind fun o c2 h2 ho =>
          pure fun c3 h3 => opt_some (ho.mono h3)
      · exact pure fun _ _ => opt_some trivial
    · exact throw _

theorem explodeFn (o : Option ℤ) {l : List Obj} (hl : SoundObjs b l) : Sound b SoundOpt (PythonDice.explodeFn o l) := by
  unfold PythonDice.explodeFn
  split
  · rename_i d
    have hd := hl d List.mem_cons_self
    refine withSettings (fun st => ?_) fun st z => rfl
    exact (maximumOf hd).bind fun mx c' hc' hmx => explodeHelper _ (hd.mono hc') hmx (hd.mono hc')
  · exact throw _

theorem explode {d : Obj} (hd : SoundObj b d) : Sound b SoundObj (PythonDice.explode d) :=
  orBlank (castCall (fun l c _ hl => explodeFn none hl) (args1 hd))

theorem someMatmul (a : Obj) {o : Obj} (ho : SoundObj b o) : Sound b SoundOpt (some <$> PythonDice.matmul a o) :=
  map (P := SoundObj) (matmul a ho) fun x c hx => opt_some hx

theorem highestN {a o : Obj} (ha : SoundObj b a) (ho : SoundObj b o) : Sound b SoundObj (PythonDice.highestN a o) :=
  orBlank (castCall (fun l c _ hl => by
    unfold highestNFn
    split
    · exact someMatmul _ (hl _ (List.mem_cons_of_mem _ List.mem_cons_self))
    · exact throw _) (args2 ha ho))

theorem lowestN {a o : Obj} (ha : SoundObj b a) (ho : SoundObj b o) : Sound b SoundObj (PythonDice.lowestN a o) :=
  orBlank (castCall (fun l c _ hl => by
    unfold lowestNFn
    split
    · exact someMatmul _ (hl _ (List.mem_cons_of_mem _ List.mem_cons_self))
    · exact throw _) (args2 ha ho))

theorem middleN {a o : Obj} (ha : SoundObj b a) (ho : SoundObj b o) : Sound b SoundObj (PythonDice.middleN a o) :=
  orBlank (castCall (fun l c _ hl => by
    unfold middleNFn
    split
    · have hd := hl _ (List.mem_cons_of_mem _ List.mem_cons_self)
      dsimp only
      split
      · exact pure fun c' hc' => opt_some (hd.mono hc')
      · split <;> exact someMatmul _ hd
    · exact throw _) (args2 ha ho))

theorem highestOf {a o : Obj} (ha : SoundObj b a) (ho : SoundObj b o) : Sound b SoundObj (PythonDice.highestOf a o) :=
  orBlank (castCall (fun l c _ _ => by unfold highestOfFn; split <;> first | exact pure fun _ _ => opt_some trivial | exact throw _) (args2 ha ho))

theorem lowestOf {a o : Obj} (ha : SoundObj b a) (ho : SoundObj b o) : Sound b SoundObj (PythonDice.lowestOf a o) :=
  orBlank (castCall (fun l c _ _ => by unfold lowestOfFn; split <;> first | exact pure fun _ _ => opt_some trivial | exact throw _) (args2 ha ho))

theorem sort {a : Obj} (ha : SoundObj b a) : Sound b SoundObj (PythonDice.sort a) :=
  orBlank (castCall (fun l c _ _ => by unfold sortFn; split <;> first | exact pure fun _ _ => opt_some trivial | exact throw _) (args1 ha))

theorem emitOutput {o : Obj} (ho : SoundObj b o) (t : Option PyText) : Sound b Anyhow (PythonDice.emitOutput o t) := by
  intro w hw
  refine ⟨le_rfl, (fun c hc => ?_), fun _ _ _ z => ⟨z, rfl⟩⟩
  have hw' : SoundWorld c w := by
    cases c with
    | false => exact hw
    | true => exact (hc rfl).2.2
  refine ⟨⟨hw'.memo, fun x hx => ?_, hw'.dicts⟩, fun _ _ => trivial⟩
  rcases List.mem_append.1 hx with hx | hx
  · exact hw'.outs x hx
  · rw [List.mem_singleton.1 hx]
    exact ho.mono fun e => (hc e).1

theorem depthCall {m : M (Option Obj)} (h : Sound b SoundOpt m) : Sound b SoundObj (PythonDice.depthCall m) := by
  unfold PythonDice.depthCall
  refine withSettings (fun st => ?_) fun st z => rfl
  split
  · split
    · exact pure fun _ _ => trivial
    · exact bind (P := Anyhow) (keep (fun _ => ⟨rfl, rfl, rfl, rfl⟩) (fun _ _ _ _ _ => trivial) fun _ _ z => ⟨z, rfl⟩) fun _ _ _ _ => pure fun _ _ => trivial
  · refine bind (P := Anyhow) (keep (fun _ => ⟨rfl, rfl, rfl, rfl⟩) (fun _ _ _ _ _ => trivial) fun _ _ z => ⟨z, rfl⟩) fun _ c1 h1 _ => ?_
    refine (h.mono h1).bind fun r c2 h2 hr => ?_
    exact bind (P := Anyhow) (keep (fun _ => ⟨rfl, rfl, rfl, rfl⟩) (fun _ _ _ _ _ => trivial) fun _ _ z => ⟨z, rfl⟩) fun _ c3 h3 _ => pure fun c4 h4 => (getD_sound hr).mono fun e => h3 (h4 e)

theorem fnCall {f : List Obj → M (Option Obj)} (hf : ∀ l c, Weaker c b → SoundObjs c l → Sound c SoundOpt (f l)) {args : List (Option Ty × Obj)}
    (ha : ∀ a ∈ args, SoundObj b a.2) : Sound b SoundObj (PythonDice.fnCall f args) := depthCall (castCall hf ha)

/-! ## Programs -/

theorem runBin (ints : Bool) (op : Compiler.BinOp) {x y : Obj} (hx : SoundObj b x) (hy : SoundObj b y) : Sound b SoundObj (Spec.runBin ints op x y) := by
  unfold Spec.runBin
  split <;> first
    | exact binop _ hx hy
    | (cases ints <;> first | exact matmul _ hy | exact myMatmul _ hy | exact myAnd hx hy | exact myOr hx hy | exact binop _ hx hy)

theorem runUnary (ints : Bool) (op : UnOp) {x : Obj} (hx : SoundObj b x) : Sound b SoundObj (Spec.runUnary ints op x) := by
  cases op with
  | plus => exact posOp hx
  | minus => exact negOp hx
  | not_ =>
    cases ints
    · exact invertOp _
    · exact myInvert _

theorem runLen (ints : Bool) (x : Obj) : Sound b SoundObj (Spec.runLen ints x) := by
  cases ints
  · exact lenOp _
  · exact pure fun _ _ => trivial

end Sound

/-- The variables in sight. -/
def SoundFrame (b : Bool) (fr : Frame) : Prop := (∀ x ∈ fr.env, SoundObj b x.2) ∧ ∀ x ∈ fr.outer, SoundObj b x.2

theorem SoundFrame.mono {b c : Bool} (hc : Weaker c b) {fr : Frame} (h : SoundFrame b fr) : SoundFrame c fr :=
  ⟨fun x hx => (h.1 x hx).mono hc, fun x hx => (h.2 x hx).mono hc⟩

theorem SoundFrame.set {b : Bool} {fr : Frame} (h : SoundFrame b fr) (x : List Char) {o : Obj} (ho : SoundObj b o) : SoundFrame b (fr.set x o) := by
  refine ⟨fun y hy => ?_, h.2⟩
  rcases List.mem_cons.1 hy with rfl | hy
  · exact ho
  · exact h.1 y hy

theorem SoundFrame.find {b : Bool} {fr : Frame} (h : SoundFrame b fr) {x : List Char} {o : Obj} (hf : fr.find x = some o) : SoundObj b o := by
  unfold Frame.find at hf
  split at hf
  · exact h.1 _ (lookup_pair_mem hf)
  · split at hf
    · exact h.1 _ (lookup_pair_mem hf)
    · exact h.2 _ (lookup_pair_mem hf)

/-- Functions of the library. -/
def SoundFn : Fn → Prop
  | .lib g => ∀ b os, SoundObjs b os → Sound b SoundObj (g os)
  | .user _ _ => True

/-- All functions. -/
def SoundFns (fns : Fns) : Prop := ∀ p ∈ fns, SoundFn p.2

/-- Calls. -/
def SoundCall (call : RunCall) : Prop := ∀ b fr fns d body args, SoundFrame b fr → SoundFns fns → SoundObjs b args →
  Sound b SoundObj (call fr fns d body args)

/-- What there is after a statement. -/
def SoundSt (b : Bool) (r : State × Option Obj) : Prop := SoundFns r.1.fns ∧ SoundFrame b r.1.fr ∧ SoundOpt b r.2

section
variable {R : Rules} {call : RunCall}

theorem sound_var {b : Bool} {fr : Frame} (h : SoundFrame b fr) (x : List Char) : Sound b SoundObj (Spec.getVar R fr x) := by
  unfold Spec.getVar
  split
  · rename_i o ho
    exact Sound.pure fun c hc => (h.find ho).mono hc
  · exact Sound.throw _

theorem sound_text {b : Bool} (fr : Frame) (ps : List StrPart) : Sound b Anyhow (Spec.textOf R fr ps) := by
  have hv : ∀ (x : List Char) (b : Bool), Sound b Anyhow (Spec.getVar R fr x) := by
    intro x b
    unfold Spec.getVar
    split
    · exact Sound.pure fun c hc => trivial
    · exact Sound.throw _
  induction ps generalizing b with
  | nil => exact Sound.pure fun _ _ => trivial
  | cons p ps ih =>
    cases p with
    | text s => exact ih.bind fun _ _ _ _ => Sound.pure fun _ _ => trivial
    | var x => exact (hv x b).bind fun _ _ _ _ => ih.bind fun _ _ _ _ => Sound.pure fun _ _ => trivial

mutual

theorem sound_E (hc : SoundCall call) {fns : Fns} (hf : SoundFns fns) {b : Bool} {fr : Frame} (hr : SoundFrame b fr) (e : Expr) :
    Sound b SoundObj (runE R call fns fr e) := by
  match e with
  | .num n => exact Sound.pure fun _ _ => trivial
  | .dec _ _ => exact Sound.throw _
  | .var x => exact sound_var hr x
  | .str _ => exact Sound.throw _
  | .group e =>
    rw [runE]
    exact sound_E hc hf hr e
  | .bin op l r =>
    rw [runE]
    exact (sound_E hc hf hr l).bind fun x c h hx => (sound_E hc hf (hr.mono h) r).bind fun y c' h' hy => Sound.runBin _ _ (hx.mono h') hy
  | .ndm l r =>
    rw [runE]
    exact (sound_E hc hf hr l).bind fun x c h hx => (sound_E hc hf (hr.mono h) r).bind fun y c' h' hy => Sound.roll (hx.mono h') hy
  | .dm r =>
    rw [runE]
    exact (sound_E hc hf hr r).bind fun x c h hx => Sound.roll1 hx
  | .unary op e =>
    rw [runE]
    exact (sound_E hc hf hr e).bind fun x c h hx => Sound.runUnary _ _ hx
  | .hash e =>
    rw [runE]
    exact (sound_E hc hf hr e).bind fun x c h hx => Sound.runLen _ _
  | .seq es =>
    rw [runE]
    exact (sound_L hc hf hr es).bind fun _ _ _ _ => Sound.pure fun _ _ => trivial
  | .call cs =>
    rw [runE]
    have hg : Sound b (fun _ f => SoundFn f) (getFn fns (callSig cs)) := by
      unfold getFn
      cases hl : fns.lookup (callSig cs) with
      | none => exact Sound.throw _
      | some f => exact Sound.pure fun _ _ => hf _ (lookup_pair_mem hl)
    refine hg.bind fun f c h hfk => (sound_C hc hf (hr.mono h) cs).bind fun args c' h' ha => ?_
    cases f with
    | lib g => exact hfk c' args ha
    | user d body => exact hc c' fr fns d body args (hr.mono fun e => h (h' e)) hf ha

theorem sound_L (hc : SoundCall call) {fns : Fns} (hf : SoundFns fns) {b : Bool} {fr : Frame} (hr : SoundFrame b fr) (es : Elems) :
    Sound b Anyhow (runElems R call fns fr es) := by
  match es with
  | .nil => exact Sound.pure fun _ _ => trivial
  | .expr e es =>
    rw [runElems]
    exact (sound_E hc hf hr e).bind fun x c h hx => (sound_L hc hf (hr.mono h) es).bind fun _ _ _ _ => Sound.pure fun _ _ => trivial
  | .range l r es =>
    rw [runElems]
    exact (sound_E hc hf hr l).bind fun x c h hx => (sound_E hc hf (hr.mono h) r).bind fun y c' h' hy => (Sound.myRange _ _).bind fun s c2 h2 _ =>
      (sound_L hc hf (hr.mono fun e => h (h' (h2 e))) es).bind fun _ _ _ _ => Sound.pure fun _ _ => trivial

theorem sound_C (hc : SoundCall call) {fns : Fns} (hf : SoundFns fns) {b : Bool} {fr : Frame} (hr : SoundFrame b fr) (cs : CallParts) :
    Sound b SoundObjs (runArgs R call fns fr cs) := by
  match cs with
  | .nil => exact Sound.pure fun _ _ o ho => by cases ho
  | .word w cs =>
    rw [runArgs]
    exact sound_C hc hf hr cs
  | .arg e cs =>
    rw [runArgs]
    refine (sound_E hc hf hr e).bind fun x c h hx => (sound_C hc hf (hr.mono h) cs).bind fun ys c' h' hys => Sound.pure fun c2 h2 o ho => ?_
    rcases List.mem_cons.1 ho with rfl | ho
    · exact hx.mono fun e => h' (h2 e)
    · exact (hys o ho).mono h2

end

theorem sound_setting {b : Bool} (n : List Char) (v : PyAny) : Sound b Anyhow (setSetting n v) := by
  refine Sound.keep (fun w => ?_) (fun _ _ _ _ _ => trivial) fun _ w z => Zeros.setSetting n v w z
  unfold setSetting
  split
  · exact ⟨rfl, rfl, rfl, rfl⟩
  · split <;> exact ⟨rfl, rfl, rfl, rfl⟩

theorem sound_set (hc : SoundCall call) {s : State} (hf : SoundFns s.fns) {b : Bool} (hr : SoundFrame b s.fr) (n : List StrPart) (v : Expr) :
    Sound b Anyhow (runSet R call s n v) := by
  have h1 : ∀ (b : Bool) m t, Sound b Anyhow (settingsSetStr m t) := by
    intro b m t
    unfold settingsSetStr
    split
    · exact sound_setting _ _
    · exact Sound.throw _
  have h2 : ∀ (b : Bool) m t, Sound b Anyhow (settingsSetObj m t) := by
    intro b m t
    unfold settingsSetObj
    split
    · exact sound_setting _ _
    · exact Sound.throw _
  have key : ∀ e : Expr, Sound b Anyhow (textOf R s.fr n >>= fun n => runE R call s.fns s.fr e >>= fun o => settingsSetObj n o) :=
    fun e => (sound_text s.fr n).bind fun m c h _ => (sound_E hc hf (hr.mono h) e).bind fun o c' h' _ => h2 c' m o
  cases v with
  | str ps => exact (sound_text s.fr n).bind fun m c h _ => (sound_text s.fr ps).bind fun t c' h' _ => h1 c' m t
  | _ => exact key _

theorem sound_loop {b : Bool} {f : State → ℤ → M (State × Option Obj)} (ns : List ℤ) :
    (∀ s n c, Weaker c b → SoundFns s.fns → SoundFrame c s.fr → Sound c SoundSt (f s n)) →
    ∀ s : State, SoundFns s.fns → SoundFrame b s.fr → Sound b SoundSt (runLoop f ns s) := by
  induction ns generalizing b with
  | nil => exact fun _ s hs hr => Sound.pure fun c hc => ⟨hs, hr.mono hc, fun x hx => by cases hx⟩
  | cons n ns ih =>
    intro h s hs hr
    rw [runLoop]
    refine (h s n b id hs hr).bind fun r c hc hst => ?_
    obtain ⟨s1, o⟩ := r
    cases o with
    | some v => exact Sound.pure fun c' hc' => ⟨hst.1, hst.2.1.mono hc', Sound.opt_mono hc' hst.2.2⟩
    | none => exact ih (fun s n c' hc' => h s n c' fun e => hc (hc' e)) s1 hst.1 hst.2.1

mutual

theorem sound_S (hc : SoundCall call) (st : Stmt) (s : State) (hf : SoundFns s.fns) {b : Bool} (hr : SoundFrame b s.fr) : Sound b SoundSt (runS R call st s) := by
  have stay : ∀ c, Weaker c b → SoundSt c (s, none) := fun c hc => ⟨hf, hr.mono hc, fun x hx => by cases hx⟩
  match st with
  | .output e =>
    rw [runS]
    exact (sound_E hc hf hr e).bind fun o c h ho => (Sound.emitOutput ho _).bind fun _ c' h' _ => Sound.pure fun c2 h2 => stay c2 fun e => h (h' (h2 e))
  | .outputNamed e n =>
    rw [runS]
    exact (sound_E hc hf hr e).bind fun o c h ho => (sound_text _ _).bind fun _ c1 h1 _ => (Sound.emitOutput (ho.mono h1) _).bind fun _ c' h' _ =>
      Sound.pure fun c2 h2 => stay c2 fun e => h (h1 (h' (h2 e)))
  | .set n v =>
    rw [runS]
    exact (sound_set hc hf hr n v).bind fun _ c h _ => Sound.pure fun c2 h2 => stay c2 fun e => h (h2 e)
  | .function d body =>
    rw [runS]
    refine Sound.pure fun c h => ⟨fun p hp => ?_, hr.mono h, fun x hx => by cases hx⟩
    rcases List.mem_cons.1 hp with rfl | hp
    · trivial
    · exact hf p hp
  | .result e =>
    rw [runS]
    exact (sound_E hc hf hr e).bind fun o c h ho => Sound.pure fun c2 h2 => ⟨hf, hr.mono fun e => h (h2 e), Sound.opt_some (ho.mono h2)⟩
  | .cond x bl r =>
    rw [runS]
    refine (sound_E hc hf hr x).bind fun o c h _ => (Sound.truthOp _).bind fun t c' h' _ => ?_
    cases t with
    | true => exact sound_B hc bl s hf (hr.mono fun e => h (h' e))
    | false => exact sound_Else hc r s hf (hr.mono fun e => h (h' e))
  | .loop x e bl =>
    rw [runS]
    refine (sound_E hc hf hr e).bind fun o c h _ => (Sound.iterOp _).bind fun ns c' h' _ => ?_
    exact sound_loop ns (fun s' n c2 h2 hs' hr' => sound_B hc bl { s' with fr := s'.fr.set x (.num n) } hs' (hr'.set x trivial)) s hf (hr.mono fun e => h (h' e))
  | .assign x e =>
    rw [runS]
    exact (sound_E hc hf hr e).bind fun o c h ho => Sound.pure fun c2 h2 =>
      ⟨hf, (hr.mono fun e => h (h2 e)).set x (ho.mono h2), fun x hx => by cases hx⟩

theorem sound_B (hc : SoundCall call) (bl : Block) (s : State) (hf : SoundFns s.fns) {b : Bool} (hr : SoundFrame b s.fr) : Sound b SoundSt (runB R call bl s) := by
  match bl with
  | .nil =>
    rw [runB]
    exact Sound.pure fun c hc => ⟨hf, hr.mono hc, fun x hx => by cases hx⟩
  | .cons st bl =>
    rw [runB]
    refine (sound_S hc st s hf hr).bind fun r c h hst => ?_
    obtain ⟨s1, o⟩ := r
    cases o with
    | some v => exact Sound.pure fun c' hc' => ⟨hst.1, hst.2.1.mono hc', Sound.opt_mono hc' hst.2.2⟩
    | none => exact sound_B hc bl s1 hst.1 hst.2.1

theorem sound_Else (hc : SoundCall call) (r : Else) (s : State) (hf : SoundFns s.fns) {b : Bool} (hr : SoundFrame b s.fr) : Sound b SoundSt (runElse R call r s) := by
  match r with
  | .done =>
    rw [runElse]
    exact Sound.pure fun c hc => ⟨hf, hr.mono hc, fun x hx => by cases hx⟩
  | .else_ bl =>
    rw [runElse]
    exact sound_B hc bl s hf hr
  | .elif x bl r =>
    rw [runElse]
    refine (sound_E hc hf hr x).bind fun o c h _ => (Sound.truthOp _).bind fun t c' h' _ => ?_
    cases t with
    | true => exact sound_B hc bl s hf (hr.mono fun e => h (h' e))
    | false => exact sound_Else hc r s hf (hr.mono fun e => h (h' e))

end

theorem sound_enter {b : Bool} {fr : Frame} (hr : SoundFrame b fr) (d : List DefPart) (body : Block) {args : List Obj} (ha : SoundObjs b args) :
    SoundFrame b (enter R fr d body args) := by
  have hz : ∀ x ∈ ((paramsOf d).map Prod.fst).zip args, SoundObj b x.2 := fun x hx => ha _ (List.of_mem_zip hx).2
  unfold enter
  split
  · refine ⟨fun x hx => ?_, fun x hx => by cases hx⟩
    rcases List.mem_append.1 hx with hx | hx
    · exact hz x hx
    · exact hr.1 x hx
  · refine ⟨hz, ?_⟩
    unfold Frame.program
    split
    · exact hr.1
    · exact hr.2

theorem sound_call (n : ℕ) : SoundCall (runCall R n) := by
  induction n with
  | zero => exact fun _ _ _ _ _ _ _ _ _ => Sound.throw _
  | succ n ih =>
    intro b fr fns d body args hr hf ha
    rw [runCall]
    refine Sound.fnCall (fun os c h hos => ?_) fun a hm => ha _ (List.of_mem_zip hm).2
    exact (sound_B ih body _ hf (sound_enter (hr.mono h) d body hos)).bind fun r c' h' hst => Sound.pure fun c2 h2 => Sound.opt_mono h2 hst.2.2

end

theorem sound_library (R : Rules) : SoundFns (if R.lib then libraryFns else []) := by
  cases R.lib with
  | false => exact fun p hp => by cases hp
  | true =>
    have one : ∀ g : Obj → M Obj, (∀ b a, SoundObj b a → Sound b SoundObj (g a)) → SoundFn (fn1 g) := by
      intro g hg b os hos
      rcases os with _ | ⟨a, _ | ⟨a', os⟩⟩
      · exact Sound.throw _
      · exact hg b a (hos a List.mem_cons_self)
      · exact Sound.throw _
    have two : ∀ g : Obj → Obj → M Obj, (∀ b a o, SoundObj b a → SoundObj b o → Sound b SoundObj (g a o)) → SoundFn (fn2 g) := by
      intro g hg b os hos
      rcases os with _ | ⟨a, _ | ⟨a', _ | ⟨a2, os⟩⟩⟩
      · exact Sound.throw _
      · exact Sound.throw _
      · exact hg b a a' (hos a List.mem_cons_self) (hos a' (List.mem_cons_of_mem _ List.mem_cons_self))
      · exact Sound.throw _
    intro p hp
    rw [if_pos rfl] at hp
    unfold libraryFns at hp
    simp only [List.mem_cons, List.not_mem_nil, or_false] at hp
    rcases hp with rfl | rfl | rfl | rfl | rfl | rfl | rfl | rfl | rfl | rfl | rfl | rfl | rfl
    · exact one _ fun b a ha => Sound.absolute ha
    · exact two _ fun b a o ha ho => Sound.contains ha ho
    · exact two _ fun b a o ha ho => Sound.countIn ha ho
    · exact one _ fun b a ha => Sound.explode ha
    · exact two _ fun b a o ha ho => Sound.highestN ha ho
    · exact two _ fun b a o ha ho => Sound.lowestN ha ho
    · exact two _ fun b a o ha ho => Sound.middleN ha ho
    · exact two _ fun b a o ha ho => Sound.highestOf ha ho
    · exact two _ fun b a o ha ho => Sound.lowestOf ha ho
    · exact one _ fun b a ha => Sound.maximumOf ha
    · exact one _ fun b a ha => Sound.reverse ha
    · exact one _ fun b a ha => Sound.sort ha
    · exact two _ fun b a o ha ho => Sound.binop .truediv ha ho

/-- A program, whether it succeeds or not. -/
theorem sound_run (R : Rules) (n : ℕ) (p : Block) : Sound true Anyhow (run R n p) := by
  unfold Spec.run
  refine Sound.bind (P := Anyhow) ?_ fun _ c h _ => ?_
  · intro w hw
    refine ⟨le_rfl, (fun c hc => ?_), fun _ _ _ z => ⟨z, rfl⟩⟩
    have hw' : SoundWorld c w := by
      cases c with
      | false => exact hw
      | true => exact (hc rfl).2.2
    exact ⟨⟨hw'.memo, (fun x hx => by cases hx), hw'.dicts⟩, fun _ _ => trivial⟩
  · refine (sound_B (sound_call n) p _ (sound_library R) ⟨(fun x hx => by cases hx), fun x hx => by cases hx⟩).bind fun _ c' h' _ => ?_
    exact Sound.plain (fun _ => rfl) (fun _ _ => rfl) fun _ _ => trivial

/-- Programs one after the other. -/
theorem sound_session (R : Rules) (n : ℕ) (ps : List Block) {w : World} (hw : SoundWorld false w) :
    w.warns ≤ (session R n ps w).warns ∧ ∀ c : Bool, (c = true → (session R n ps w).warns = w.warns ∧ SoundWorld true w) →
      SoundWorld c (session R n ps w) := by
  induction ps generalizing w with
  | nil =>
    refine ⟨le_rfl, fun c hc => ?_⟩
    cases c with
    | false => exact hw
    | true => exact (hc rfl).2
  | cons p ps ih =>
    obtain ⟨h1, h2, _⟩ := sound_run R n p w hw
    obtain ⟨h3, h4⟩ := ih (h2 false fun e => by cases e).1
    refine ⟨h1.trans h3, fun c hc => ?_⟩
    cases c with
    | false => exact h4 false fun e => by cases e
    | true =>
      obtain ⟨g1, g2⟩ := hc rfl
      rw [session] at g1
      exact h4 true fun _ => ⟨by omega, (h2 true fun _ => ⟨rfl, by omega, g2⟩).1⟩

end PythonDice
