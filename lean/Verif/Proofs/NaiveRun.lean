import Verif.Proofs.ExactLib
import Verif.Proofs.Calm

/-! Running a program against enumeration. -/

namespace PythonDice
open Spec
open Spec.Naive (Law Val Config)
open Compiler (Expr Elems CallParts Stmt Block Else DefPart StrPart)

namespace Enum

/-! ## Statements about computations -/

variable {β γ : Type} {I : Settings → Prop}

/-- What a computation keeps, whatever it is given: the states are possible ones, warnings stay, `I` holds if it succeeds; if `top` is not set,
nothing is output. -/
def Stable (I : Settings → Prop) (top : Bool) (m : M β) (S : β → Prop) : Prop :=
  ∀ w, Reachable w → I w.settings → Reachable (m w).2 ∧ w.warns ≤ (m w).2.warns ∧ (top = false → (m w).2.outs = w.outs) ∧
    ∀ x, (m w).1 = .ok x → I (m w).2.settings ∧ S x

/-- The settings: functions may be called so deep, so much of that is left, which die is first, dice explode so often. -/
structure Inv (c : Config) (st : Settings) : Prop where
  depth : st.maxFuncDepth = c.depth
  left : st.maxFuncDepth - st.currDepth = c.left
  order : st.positionOrder = Enum.order c.low
  explode : st.explodeDepth.toNat = c.explode

/-- What a computation gives, if there are no warnings and the limiter does not overflow: the result, the new outputs and the settings. -/
def Trip (c : Config) (m : M β) (P : β → List (Obj × Option PyText) → Config → Prop) : Prop :=
  ∀ w, Reachable w → Inv c w.settings → (m w).2.warns = 0 → (m w).1 = .error .overflow ∨
    ∃ x new c', (m w).1 = .ok x ∧ (m w).2.outs = w.outs ++ new ∧ Inv c' (m w).2.settings ∧ P x new c'

variable {c : Config}

theorem stable_calm {top : Bool} {m : M β} (h : Calm m) : Stable I top m fun _ => True := by
  intro w hw hi
  obtain ⟨h1, h2, h3, h4⟩ := h w hw
  exact ⟨h1, h2, fun _ => h4, fun x _ => ⟨by rw [h3]; exact hi, trivial⟩⟩

theorem stable_pure {top : Bool} {x : β} {S : β → Prop} (h : S x) : Stable I top (pure x : M β) S :=
  fun w hw hi => ⟨hw, le_refl _, fun _ => rfl, fun y hy => by cases hy; exact ⟨hi, h⟩⟩

theorem stable_throw {top : Bool} {e : Err} {S : β → Prop} : Stable I top (M.throw e : M β) S :=
  fun w hw hi => ⟨hw, le_refl _, fun _ => rfl, fun y hy => by cases hy⟩

theorem Stable.bind {top : Bool} {m : M β} {f : β → M γ} {S : β → Prop} {T : γ → Prop} (hm : Stable I top m S)
    (hf : ∀ x, S x → Stable I top (f x) T) : Stable I top (m >>= f) T := by
  intro w hw hi
  obtain ⟨h1, h2, h3, h4⟩ := hm w hw hi
  rw [M.bind_apply]
  rcases hr : m w with ⟨r, w'⟩
  rw [hr] at h1 h2 h3 h4
  cases r with
  | error e => exact ⟨h1, h2, h3, fun x hx => by cases hx⟩
  | ok x =>
    obtain ⟨i1, i2⟩ := h4 x rfl
    obtain ⟨g1, g2, g3, g4⟩ := hf x i2 w' h1 i1
    exact ⟨g1, h2.trans g2, fun ht => (g3 ht).trans (h3 ht), g4⟩

theorem Stable.top {top : Bool} {m : M β} {S : β → Prop} (h : Stable I false m S) : Stable I top m S :=
  fun w hw hi => ⟨(h w hw hi).1, (h w hw hi).2.1, fun _ => (h w hw hi).2.2.1 rfl, (h w hw hi).2.2.2⟩

theorem Stable.triple {top : Bool} {m : M β} {S : β → Prop} (h : Stable I top m S) : Triple I m fun _ => True :=
  fun w hw hi => ⟨(h w hw hi).1, (h w hw hi).2.1, fun x hx => ⟨((h w hw hi).2.2.2 x hx).1, fun _ => trivial⟩⟩

theorem Stable.forList {top : Bool} {f : β → M γ} (hf : ∀ x, Stable I top (f x) fun _ => True) (l : List β) :
    Stable I top (M.forList f l) fun _ => True := by
  induction l with
  | nil => exact stable_pure trivial
  | cons x xs ih =>
    rw [M.forList_cons]
    exact (hf x).bind fun _ _ => ih.bind fun _ _ => stable_pure trivial

theorem Stable.castCall {top : Bool} {f : List Obj → M (Option Obj)} (hf : ∀ l, Stable I top (f l) fun _ => True) (args : List (Option Ty × Obj)) :
    Stable I top (castCall f args) fun _ => True := by
  unfold PythonDice.castCall
  split
  · exact stable_pure trivial
  · refine (stable_calm (Calm.forList (fun a => Calm.castSlot a.1 a.2) args)).bind fun slots _ => ?_
    split
    · refine (Stable.forList (fun c : List Obj × ℕ => (hf c.1).bind fun v _ => stable_pure trivial) _).bind fun res _ => ?_
      exact stable_calm ((Calm.ofLimited _).bind fun r => Calm.pure _)
    · exact hf _

theorem trip_pure {x : β} {P : β → List (Obj × Option PyText) → Config → Prop} (h : P x [] c) : Trip c (pure x : M β) P :=
  fun w _ hi _ => .inr ⟨x, [], c, rfl, (List.append_nil _).symm, hi, h⟩

theorem Trip.bind {top : Bool} {m : M β} {f : β → M γ} {S : β → Prop} {T : γ → Prop} {P : β → List (Obj × Option PyText) → Config → Prop}
    {Q : γ → List (Obj × Option PyText) → Config → Prop} (hI : ∀ st, Inv c st → I st) (sm : Stable I top m S)
    (sf : ∀ x, S x → Stable I top (f x) T) (hm : Trip c m P)
    (hf : ∀ x new c', S x → P x new c' → Trip c' (f x) fun y new' => Q y (new ++ new')) : Trip c (m >>= f) Q := by
  intro w hw hi h0
  obtain ⟨h1, h2, h3, h4⟩ := sm w hw (hI _ hi)
  have hm' := hm w hw hi
  rw [M.bind_apply] at h0 ⊢
  rcases hr : m w with ⟨r, w'⟩
  rw [hr] at h1 h2 h3 h4 hm' h0
  cases r with
  | error e =>
    rcases hm' h0 with he | ⟨x, _, _, hx, _⟩
    · cases he; exact .inl rfl
    · cases hx
  | ok x =>
    obtain ⟨i1, i2⟩ := h4 x rfl
    obtain ⟨g1, g2, g3, g4⟩ := sf x i2 w' h1 i1
    simp only at *
    rcases hm' (by omega) with he | ⟨x, new, c', hx, e, i3, hp⟩
    · cases he
    · cases hx
      rcases hf x new c' i2 hp w' h1 i3 h0 with he | ⟨y, new', c'', hy, e', i4, hq⟩
      · exact .inl he
      · exact .inr ⟨y, new ++ new', c'', hy, by rw [e', e, List.append_assoc], i4, hq⟩

/-- A computation that outputs nothing. -/
theorem trip_full {m : M β} {S P : β → Prop} (hI : ∀ st, Inv c st → I st) (hs : Stable I false m S) (h : Full (Inv c) m P) :
    Trip c m fun x new c' => new = [] ∧ c' = c ∧ P x := by
  intro w hw hi h0
  rcases h.2 w hw hi h0 with ⟨x, hx⟩ | he
  · exact .inr ⟨x, [], c, hx, by rw [(hs w hw (hI _ hi)).2.2.1 rfl, List.append_nil], ((h.1 w hw hi).2.2 x hx).1, rfl, rfl,
      ((h.1 w hw hi).2.2 x hx).2 h0⟩
  · exact .inl he

theorem full_trip {top : Bool} {m : M β} {S P : β → Prop} {Q : β → List (Obj × Option PyText) → Config → Prop} (hs : Stable (Inv c) top m S)
    (h : Trip c m Q) (hq : ∀ x new c', Q x new c' → P x) : Full (Inv c) m P := by
  refine ⟨fun w hw hi => ?_, fun w hw hi h0 => ?_⟩
  · obtain ⟨h1, h2, _, h4⟩ := hs w hw hi
    refine ⟨h1, h2, fun x hx => ⟨(h4 x hx).1, fun h0 => ?_⟩⟩
    rcases h w hw hi h0 with he | ⟨y, new, c', hy, _, _, h5⟩
    · rw [hx] at he; cases he
    · rw [hx] at hy; cases hy
      exact hq x new c' h5
  · rcases h w hw hi h0 with he | ⟨y, _, _, hy, _⟩
    · exact .inr he
    · exact .inl ⟨y, hy⟩

/-- First a computation that outputs nothing and keeps the settings. -/
theorem Trip.after {top : Bool} {m : M β} {f : β → M γ} {T : γ → Prop} {P : β → Prop} {Q : γ → List (Obj × Option PyText) → Config → Prop}
    (hI : ∀ st, Inv c st → I st) (sm : Stable I false m fun _ => True) (sf : ∀ x, Stable I top (f x) T) (hm : Full (Inv c) m P)
    (hf : ∀ x, P x → Trip c (f x) Q) : Trip c (m >>= f) Q := by
  refine Trip.bind (top := top) hI sm.top (fun x _ => sf x) (trip_full hI sm hm) ?_
  rintro x new c' _ ⟨rfl, rfl, hp⟩
  exact hf x hp

/-! ## Depth -/

theorem depthCall_eq (body : M (Option Obj)) (w : World) : depthCall body w =
    if w.settings.maxFuncDepth ≤ w.settings.currDepth then
      (.ok (.blank false), if w.settings.currDepthWarningPrinted then w else { w with
        depthMsgs := w.depthMsgs + 1
        settings := { w.settings with currDepthWarningPrinted := true } })
    else
      match body { w with settings := { w.settings with currDepth := w.settings.currDepth + 1 } } with
      | (.ok r, w') => (.ok (r.getD (.blank false)), { w' with settings := { w'.settings with currDepth := w'.settings.currDepth - 1 } })
      | (.error e, w') => (.error e, w') := by
  unfold depthCall
  rw [M.bind_apply]
  simp only [M.settings]
  by_cases h : w.settings.maxFuncDepth ≤ w.settings.currDepth
  · rw [if_pos h, if_pos h]
    by_cases hp : w.settings.currDepthWarningPrinted
    · rw [if_pos hp, if_pos hp]; rfl
    · rw [if_neg hp, if_neg hp]; rfl
  · rw [if_neg h, if_neg h, M.bind_apply]
    simp only [M.modify]
    rw [M.bind_apply]
    rcases body _ with ⟨_ | _, _⟩ <;> rfl

/-- In a function, one call less is left. -/
def deeper (c : Config) : Config := { c with left := c.left - 1 }

theorem stable_depthCall {body : M (Option Obj)} (h : Stable (Inv (deeper c)) false body fun _ => True) :
    Stable (Inv c) false (depthCall body) fun _ => True := by
  intro w hw hi
  rw [depthCall_eq]
  split_ifs with h1 h2
  · exact ⟨hw, le_refl _, fun _ => rfl, fun _ _ => ⟨hi, trivial⟩⟩
  · exact ⟨(hw.settings { w.settings with currDepthWarningPrinted := true }).effects (w.depthMsgs + 1) w.trace w.outs w.dicts, le_refl _,
      fun _ => rfl, fun _ _ => ⟨⟨hi.depth, hi.left, hi.order, hi.explode⟩, trivial⟩⟩
  · obtain ⟨g1, g2, g3, g4⟩ := h _ (hw.settings { w.settings with currDepth := w.settings.currDepth + 1 })
      ⟨hi.depth, by have := hi.left; simp only [deeper]; omega, hi.order, hi.explode⟩
    rcases hb : body { w with settings := { w.settings with currDepth := w.settings.currDepth + 1 } } with ⟨r, w'⟩
    rw [hb] at g1 g2 g3 g4
    cases r with
    | error e => exact ⟨g1, g2, g3, fun x hx => by cases hx⟩
    | ok r =>
      obtain ⟨i1, _⟩ := g4 r rfl
      exact ⟨g1.settings _, g2, g3, fun x _ =>
        ⟨⟨i1.depth, by have := i1.left; simp only [deeper] at this ⊢; omega, i1.order, i1.explode⟩, trivial⟩⟩

theorem stable_depthCall_any {body : M (Option Obj)} (h : Stable (fun _ => True) false body fun _ => True) :
    Stable (fun _ => True) false (depthCall body) fun _ => True := by
  intro w hw _
  rw [depthCall_eq]
  split_ifs with h1 h2
  · exact ⟨hw, le_refl _, fun _ => rfl, fun _ _ => ⟨trivial, trivial⟩⟩
  · exact ⟨(hw.settings { w.settings with currDepthWarningPrinted := true }).effects (w.depthMsgs + 1) w.trace w.outs w.dicts, le_refl _,
      fun _ => rfl, fun _ _ => ⟨trivial, trivial⟩⟩
  · obtain ⟨g1, g2, g3, _⟩ := h _ (hw.settings { w.settings with currDepth := w.settings.currDepth + 1 }) trivial
    rcases hb : body { w with settings := { w.settings with currDepth := w.settings.currDepth + 1 } } with ⟨r, w'⟩
    rw [hb] at g1 g2 g3
    cases r with
    | error e => exact ⟨g1, g2, g3, fun x hx => by cases hx⟩
    | ok r => exact ⟨g1.settings _, g2, g3, fun x _ => ⟨trivial, trivial⟩⟩

theorem full_depthCall {body : M (Option Obj)} {P : Obj → Prop} (hs : Stable (Inv (deeper c)) false body fun _ => True)
    (h0 : c.left ≤ 0 → P (.blank false)) (h1 : 0 < c.left → Full (Inv (deeper c)) body fun o => P (o.getD (.blank false))) :
    Full (Inv c) (depthCall body) P := by
  refine ⟨fun w hw hi => ?_, fun w hw hi hw0 => ?_⟩
  · obtain ⟨s1, s2, _, s4⟩ := stable_depthCall hs w hw hi
    refine ⟨s1, s2, fun x hx => ⟨(s4 x hx).1, fun hw0 => ?_⟩⟩
    have hd := hi.left
    rw [depthCall_eq] at hx hw0
    split_ifs at hx hw0 with c1 c2
    · cases hx; exact h0 (by omega)
    · cases hx; exact h0 (by omega)
    · obtain ⟨g1, g2, g3⟩ := (h1 (by omega)).1 _ (hw.settings { w.settings with currDepth := w.settings.currDepth + 1 })
        ⟨hi.depth, by simp only [deeper]; omega, hi.order, hi.explode⟩
      rcases hb : body { w with settings := { w.settings with currDepth := w.settings.currDepth + 1 } } with ⟨r, w'⟩
      rw [hb] at g3 hx hw0
      cases r with
      | error e => cases hx
      | ok r => cases hx; exact (g3 r rfl).2 hw0
  · have hd := hi.left
    rw [depthCall_eq] at hw0 ⊢
    split_ifs at hw0 ⊢ with c1 c2
    · exact .ok _
    · exact .ok _
    · have g := (h1 (by omega)).2 _ (hw.settings { w.settings with currDepth := w.settings.currDepth + 1 })
        ⟨hi.depth, by simp only [deeper]; omega, hi.order, hi.explode⟩
      rcases hb : body { w with settings := { w.settings with currDepth := w.settings.currDepth + 1 } } with ⟨r, w'⟩
      rw [hb] at g hw0
      cases r with
      | error e =>
        rcases g hw0 with ⟨x, hx⟩ | he
        · cases hx
        · cases he; exact .inr rfl
      | ok r => exact .ok _

/-! ## What a program keeps -/

/-- Functions that output nothing and change no settings. -/
def FnsOk (fns : Fns) : Prop := ∀ f ∈ fns, match f.2 with
  | .lib g => ∀ args, Calm (g args)
  | .user _ b => Naive.plainB false b = true

theorem lookup_mem {α : Type} {l : List (Sig × α)} {s : Sig} {f : α} (h : l.lookup s = some f) : ∃ p ∈ l, p.2 = f := by
  induction l with
  | nil => cases h
  | cons p l ih =>
    obtain ⟨a, b⟩ := p
    rw [List.lookup_cons] at h
    split at h
    · cases h; exact ⟨_, List.mem_cons_self, rfl⟩
    · obtain ⟨q, hq, e⟩ := ih h
      exact ⟨q, List.mem_cons_of_mem _ hq, e⟩

/-- Calls of functions that output nothing and change no settings. -/
def CallStable (I : Settings → Prop) (call : RunCall) : Prop :=
  ∀ fr fns d body args, FnsOk fns → Naive.plainB false body = true → Stable I false (call fr fns d body args) fun _ => True

theorem calm_getVar (R : Rules) (f : Frame) (x : List Char) : Calm (getVar R f x) := by
  unfold getVar
  split
  · exact Calm.pure _
  · exact Calm.throw _

theorem calm_runBin (ints : Bool) (op : Compiler.BinOp) (a b : Obj) : Calm (runBin ints op a b) := by
  cases op <;> first | exact Calm.binop _ _ _ | skip
  all_goals
    unfold runBin
    split
    · first | exact Calm.myMatmul _ _ | exact Calm.myAnd _ _ | exact Calm.myOr _ _
    · first | exact Calm.matmul _ _ | exact Calm.binop _ _ _

theorem calm_runUnary (ints : Bool) (op : Compiler.UnOp) (a : Obj) : Calm (runUnary ints op a) := by
  cases op
  · exact Calm.posOp _
  · exact Calm.negOp _
  · unfold runUnary
    split
    · exact Calm.myInvert _
    · exact Calm.invertOp _

theorem calm_runLen (ints : Bool) (a : Obj) : Calm (runLen ints a) := by
  unfold runLen
  split
  · exact Calm.pure _
  · exact Calm.lenOp _

theorem calm_textOf (R : Rules) (f : Frame) (ps : List StrPart) : Calm (textOf R f ps) := by
  induction ps with
  | nil => exact Calm.pure _
  | cons p ps ih =>
    cases p
    · exact ih.bind fun _ => Calm.pure _
    · exact (calm_getVar _ _ _).bind fun _ => ih.bind fun _ => Calm.pure _

section
variable {R : Rules} {call : RunCall}

theorem stable_apply (hc : CallStable I call) {fns : Fns} (hF : FnsOk fns) (fr : Frame) {f : Spec.Fn} {s : Sig} (hf : fns.lookup s = some f) (args : List Obj) :
    Stable I false (applyFn call fns fr f args) fun _ => True := by
  obtain ⟨p, hp, rfl⟩ := lookup_mem hf
  have := hF p hp
  unfold applyFn
  split <;> rename_i h
  · rw [h] at this
    exact stable_calm (this args)
  · rw [h] at this
    exact hc _ _ _ _ _ hF this

mutual

theorem stableE (hc : CallStable I call) {fns : Fns} (hF : FnsOk fns) (fr : Frame) (e : Expr) : Stable I false (runE R call fns fr e) fun _ => True :=
  match e with
  | .num n => stable_pure trivial
  | .dec _ _ => stable_throw
  | .var x => stable_calm (calm_getVar _ _ _)
  | .str _ => stable_throw
  | .group e => stableE hc hF fr e
  | .bin op l r => (stableE hc hF fr l).bind fun _ _ => (stableE hc hF fr r).bind fun _ _ => stable_calm (calm_runBin _ _ _ _)
  | .ndm l r => (stableE hc hF fr l).bind fun _ _ => (stableE hc hF fr r).bind fun _ _ => stable_calm (Calm.roll _ _)
  | .dm r => (stableE hc hF fr r).bind fun _ _ => stable_calm (Calm.roll1 _)
  | .unary op e => (stableE hc hF fr e).bind fun _ _ => stable_calm (calm_runUnary _ _ _)
  | .hash e => (stableE hc hF fr e).bind fun _ _ => stable_calm (calm_runLen _ _)
  | .seq es => (stableElems hc hF fr es).bind fun _ _ => stable_pure trivial
  | .call cs => by
    unfold runE getFn
    rcases hl : fns.lookup (callSig cs) with _ | f
    · exact Stable.bind (S := fun _ => False) stable_throw fun _ h => h.elim
    · exact Stable.bind (S := fun x => x = f) (stable_pure rfl) fun x hx => by
        subst hx
        exact (stableArgs hc hF fr cs).bind fun args _ => stable_apply hc hF fr hl args

theorem stableElems (hc : CallStable I call) {fns : Fns} (hF : FnsOk fns) (fr : Frame) (es : Elems) : Stable I false (runElems R call fns fr es) fun _ => True :=
  match es with
  | .nil => stable_pure trivial
  | .expr e es => (stableE hc hF fr e).bind fun _ _ => (stableElems hc hF fr es).bind fun _ _ => stable_pure trivial
  | .range l r es => (stableE hc hF fr l).bind fun _ _ => (stableE hc hF fr r).bind fun _ _ => (stable_calm (Calm.myRange _ _)).bind fun _ _ =>
    (stableElems hc hF fr es).bind fun _ _ => stable_pure trivial

theorem stableArgs (hc : CallStable I call) {fns : Fns} (hF : FnsOk fns) (fr : Frame) (cs : CallParts) : Stable I false (runArgs R call fns fr cs) fun _ => True :=
  match cs with
  | .nil => stable_pure trivial
  | .word _ cs => stableArgs hc hF fr cs
  | .arg e cs => (stableE hc hF fr e).bind fun _ _ => (stableArgs hc hF fr cs).bind fun _ _ => stable_pure trivial

end

theorem stable_emit (o : Obj) (n : Option PyText) : Stable I true (emitOutput o n) fun _ => True := by
  intro w hw hi
  exact ⟨hw.effects w.depthMsgs w.trace _ w.dicts, le_refl _, (fun h => by cases h), fun _ _ => ⟨hi, trivial⟩⟩

theorem stable_setSetting (hI : ∀ st, I st) (n : List Char) (v : PyAny) : Stable I true (setSetting n v) fun _ => True := by
  intro w hw _
  unfold setSetting
  split
  · exact ⟨hw, le_refl _, fun _ => rfl, fun _ _ => ⟨hI _, trivial⟩⟩
  · split
    · exact ⟨hw.settings _, le_refl _, fun _ => rfl, fun _ _ => ⟨hI _, trivial⟩⟩
    · exact ⟨hw, le_refl _, fun _ => rfl, fun _ _ => ⟨hI _, trivial⟩⟩

theorem stable_setStr (hI : ∀ st, I st) (n t : PyText) : Stable I true (settingsSetStr n t) fun _ => True := by
  unfold settingsSetStr
  split
  · exact stable_setSetting hI _ _
  · exact stable_throw

theorem stable_setObj (hI : ∀ st, I st) (n : PyText) (o : Obj) : Stable I true (settingsSetObj n o) fun _ => True := by
  unfold settingsSetObj
  split
  · exact stable_setSetting hI _ _
  · exact stable_throw

theorem stable_set (hI : ∀ st, I st) (hc : CallStable I call) (s : State) (hs : FnsOk s.fns) (n : List StrPart) (v : Expr) :
    Stable I true (runSet R call s n v) fun _ => True := by
  unfold runSet
  split
  · exact (stable_calm (calm_textOf R s.fr n)).bind fun _ _ => (stable_calm (calm_textOf R s.fr _)).bind fun _ _ => stable_setStr hI _ _
  · exact (stable_calm (calm_textOf R s.fr n)).bind fun _ _ => (stableE hc hs s.fr _).top.bind fun _ _ => stable_setObj hI _ _

theorem stable_loop {top : Bool} {f : State → ℤ → M (State × Option Obj)}
    (hf : ∀ s n, FnsOk s.fns → Stable I top (f s n) fun r => FnsOk r.1.fns) (ns : List ℤ) {s : State} (hs : FnsOk s.fns) :
    Stable I top (runLoop f ns s) fun r => FnsOk r.1.fns := by
  induction ns generalizing s with
  | nil => exact stable_pure hs
  | cons n ns ih =>
    unfold runLoop
    refine (hf s n hs).bind fun r hr => ?_
    rcases r.2 with _ | v
    · exact ih hr
    · exact stable_pure hr

mutual

theorem stableS (hc : CallStable I call) {top : Bool} (hI : top = true → ∀ st, I st) (st : Stmt) (hp : Naive.plainS top st = true) (s : State) (hs : FnsOk s.fns) :
    Stable I top (runS R call st s) fun r => FnsOk r.1.fns :=
  match st with
  | .output e => by
    have ht : top = true := hp
    subst ht
    exact (stableE hc hs s.fr e).top.bind fun o _ => (stable_emit o none).bind fun _ _ => stable_pure hs
  | .outputNamed e n => by
    have ht : top = true := hp
    subst ht
    exact (stableE hc hs s.fr e).top.bind fun o _ => (stable_calm (calm_textOf R s.fr n)).bind fun t _ =>
      (stable_emit o (some t)).bind fun _ _ => stable_pure hs
  | .set n v => by
    have ht : top = true := hp
    subst ht
    exact (stable_set (hI rfl) hc s hs n v).bind fun _ _ => stable_pure hs
  | .function d body => stable_pure (by
    intro f hf
    rcases List.mem_cons.1 hf with rfl | hf
    · exact hp
    · exact hs f hf)
  | .result e => (stableE hc hs s.fr e).top.bind fun o _ => stable_pure hs
  | .cond c body rest => by
    have hp' : Naive.plainB top body = true ∧ Naive.plainE top rest = true := by simpa [Naive.plainS] using hp
    refine (stableE hc hs s.fr c).top.bind fun o _ => (stable_calm (Calm.truthOp o)).bind fun t _ => ?_
    cases t
    · exact stableEl hc hI rest hp'.2 s hs
    · exact stableB hc hI body hp'.1 s hs
  | .loop x e body =>
    (stableE hc hs s.fr e).top.bind fun o _ => (stable_calm (Calm.iterOp o)).bind fun ns _ =>
      stable_loop (fun s n hs => stableB hc hI body hp { s with fr := s.fr.set x (.num n) } hs) ns hs
  | .assign x e => (stableE hc hs s.fr e).top.bind fun o _ => stable_pure hs

theorem stableB (hc : CallStable I call) {top : Bool} (hI : top = true → ∀ st, I st) (b : Block) (hp : Naive.plainB top b = true) (s : State) (hs : FnsOk s.fns) :
    Stable I top (runB R call b s) fun r => FnsOk r.1.fns :=
  match b with
  | .nil => stable_pure hs
  | .cons st b => by
    have hp' : Naive.plainS top st = true ∧ Naive.plainB top b = true := by simpa [Naive.plainB] using hp
    refine (stableS hc hI st hp'.1 s hs).bind fun r hr => ?_
    rcases r.2 with _ | v
    · exact stableB hc hI b hp'.2 r.1 hr
    · exact stable_pure hr

theorem stableEl (hc : CallStable I call) {top : Bool} (hI : top = true → ∀ st, I st) (b : Else) (hp : Naive.plainE top b = true) (s : State) (hs : FnsOk s.fns) :
    Stable I top (runElse R call b s) fun r => FnsOk r.1.fns :=
  match b with
  | .done => stable_pure hs
  | .else_ b => stableB hc hI b hp s hs
  | .elif c b r => by
    have hp' : Naive.plainB top b = true ∧ Naive.plainE top r = true := by simpa [Naive.plainE] using hp
    refine (stableE hc hs s.fr c).top.bind fun o _ => (stable_calm (Calm.truthOp o)).bind fun t _ => ?_
    cases t
    · exact stableEl hc hI r hp'.2 s hs
    · exact stableB hc hI b hp'.1 s hs

end

theorem callStable (R : Rules) (n : ℕ) (c : Config) : CallStable (Inv c) (runCall R n) := by
  induction n generalizing c with
  | zero => exact fun fr fns d body args _ _ => stable_throw
  | succ n ih =>
    intro fr fns d body args hF hb
    exact stable_depthCall (Stable.castCall (fun os => (stableB (ih (deeper c)) (fun h => by cases h) body hb _ hF).bind fun _ _ => stable_pure trivial) _)

theorem callStable_any (R : Rules) (n : ℕ) : CallStable (fun _ => True) (runCall R n) := by
  induction n with
  | zero => exact fun fr fns d body args _ _ => stable_throw
  | succ n ih =>
    intro fr fns d body args hF hb
    exact stable_depthCall_any (Stable.castCall (fun os => (stableB ih (fun h => by cases h) body hb _ hF).bind fun _ _ => stable_pure trivial) _)

theorem fnsOk_library : FnsOk libraryFns := by
  have h1 : ∀ f : Obj → M Obj, (∀ a, Calm (f a)) → match fn1 f with
      | .lib g => ∀ args, Calm (g args)
      | .user _ b => Naive.plainB false b = true := by
    intro f hf args
    match args with
    | [] => exact Calm.throw _
    | [a] => exact hf a
    | _ :: _ :: _ => exact Calm.throw _
  have h2 : ∀ f : Obj → Obj → M Obj, (∀ a b, Calm (f a b)) → match fn2 f with
      | .lib g => ∀ args, Calm (g args)
      | .user _ b => Naive.plainB false b = true := by
    intro f hf args
    match args with
    | [] => exact Calm.throw _
    | [_] => exact Calm.throw _
    | [a, b] => exact hf a b
    | _ :: _ :: _ :: _ => exact Calm.throw _
  intro f hf
  simp only [libraryFns, List.mem_cons, List.not_mem_nil, or_false] at hf
  rcases hf with rfl | rfl | rfl | rfl | rfl | rfl | rfl | rfl | rfl | rfl | rfl | rfl | rfl
  · exact h1 _ Calm.absolute
  · exact h2 _ Calm.contains
  · exact h2 _ Calm.countIn
  · exact h1 _ Calm.explode
  · exact h2 _ Calm.highestN
  · exact h2 _ Calm.lowestN
  · exact h2 _ Calm.middleN
  · exact h2 _ Calm.highestOf
  · exact h2 _ Calm.lowestOf
  · exact h1 _ Calm.maximumOf
  · exact h1 _ Calm.reverse
  · exact h1 _ Calm.sort
  · exact h2 _ Calm.trueDiv

/-! ## What a program gives -/

/-- Functions and their descriptions. -/
def FnsRep (fns : Fns) (funs : Naive.Funs) : Prop :=
  List.Forall₂ (fun (a : Sig × Spec.Fn) (b : Sig × Naive.Fun) => a.1 = b.1 ∧ ∀ c, FnRep (Inv c) c.table a.2 b.2 ∧ FnSafe (Inv c) c.table a.2 b.2)
    fns funs

/-- Variables and their descriptions. -/
def VarsRep (env : Vars) (env' : Naive.Env) : Prop := List.Forall₂ (fun (a : List Char × Obj) (b : List Char × Val) => a.1 = b.1 ∧ Rep a.2 b.2) env env'

structure FrameRep (f : Frame) (f' : Naive.Scope) : Prop where
  own : f.own = f'.own
  env : VarsRep f.env f'.env
  outer : VarsRep f.outer f'.outer

theorem lookup_rep {κ α β : Type} [BEq κ] {P : α → β → Prop} {l : List (κ × α)} {l' : List (κ × β)}
    (h : List.Forall₂ (fun a b => a.1 = b.1 ∧ P a.2 b.2) l l') {s : κ} {y : β} (hy : l'.lookup s = some y) : ∃ x, l.lookup s = some x ∧ P x y := by
  induction h with
  | nil => cases hy
  | @cons a b l l' hab _ ih =>
    obtain ⟨a1, a2⟩ := a
    obtain ⟨b1, b2⟩ := b
    obtain ⟨rfl, hab⟩ := hab
    rw [List.lookup_cons] at hy ⊢
    split at hy <;> rename_i hs
    · cases hy
      rw [hs]
      exact ⟨a2, rfl, hab⟩
    · rw [hs]
      exact ih hy

theorem FrameRep.find {f : Frame} {f' : Naive.Scope} (h : FrameRep f f') {x : List Char} {v : Val} (hv : f'.find x = some v) :
    ∃ o, f.find x = some o ∧ Rep o v := by
  unfold Naive.Scope.find at hv
  unfold Frame.find
  rw [h.own]
  rcases ho : f'.own with _ | names
  · rw [ho] at hv
    exact lookup_rep h.env hv
  · rw [ho] at hv
    simp only at hv ⊢
    by_cases hx : x ∈ names
    · rw [if_pos hx] at hv ⊢
      exact lookup_rep h.env hv
    · rw [if_neg hx] at hv ⊢
      exact lookup_rep h.outer hv

theorem FrameRep.set {f : Frame} {f' : Naive.Scope} (h : FrameRep f f') (x : List Char) {o : Obj} {v : Val} (hv : Rep o v) :
    FrameRep (f.set x o) (f'.set x v) := ⟨h.own, .cons ⟨rfl, hv⟩ h.env, h.outer⟩

theorem FrameRep.program {f : Frame} {f' : Naive.Scope} (h : FrameRep f f') : VarsRep f.program f'.program := by
  unfold Frame.program Naive.Scope.program
  rw [h.own]
  rcases f'.own with _ | _
  · exact h.env
  · exact h.outer

theorem zip_rep (names : List (List Char)) {os : List Obj} {vs : List Val} (h : List.Forall₂ Rep os vs) : VarsRep (names.zip os) (names.zip vs) := by
  induction h generalizing names with
  | nil => cases names <;> exact .nil
  | cons hd _ ih =>
    cases names with
    | nil => exact .nil
    | cons n names => exact .cons ⟨rfl, hd⟩ (ih names)

theorem zip_repA (ts : List (Option Ty)) {os : List Obj} {vs : List Val} (h : List.Forall₂ Rep os vs) :
    List.Forall₂ RepA (ts.zip os) (ts.zip vs) := by
  induction h generalizing ts with
  | nil => cases ts <;> exact .nil
  | cons hd _ ih =>
    cases ts with
    | nil => exact .nil
    | cons n ts => exact .cons ⟨rfl, hd⟩ (ih ts)

theorem FrameRep.enter {f : Frame} {f' : Naive.Scope} (h : FrameRep f f') (R : Rules) (d : List DefPart) (body : Block) {os : List Obj}
    {vs : List Val} (hos : List.Forall₂ Rep os vs) : FrameRep (enter R f d body os) (Naive.begin' R f' d body vs) := by
  unfold Spec.enter Naive.begin'
  split
  · exact ⟨rfl, List.rel_append (zip_rep _ hos) h.env, .nil⟩
  · exact ⟨rfl, zip_rep _ hos, h.program⟩

/-- Calls and their descriptions. -/
def CallRep (c : Config) (call : RunCall) (call' : Naive.Call) : Prop :=
  call'.table = c.table ∧ ∀ fr fr' fns fns' d body args args' x, FrameRep fr fr' → FnsOk fns → FnsRep fns fns' → Naive.plainB false body = true →
    List.Forall₂ Rep args args' → call'.user fr' fns' d body args' = some x → Full (Inv c) (call fr fns d body args) fun y => Rep y x

variable {call' : Naive.Call}

theorem apply_rep (hr : CallRep c call call') {fns : Fns} {fns' : Naive.Funs} (hF : FnsOk fns) (hR : FnsRep fns fns') {fr : Frame}
    {fr' : Naive.Scope} (hfr : FrameRep fr fr') {f : Spec.Fn} {f' : Naive.Fun} (hf : ∀ c, FnRep (Inv c) c.table f f') {args : List Obj}
    {args' : List Val} (ha : List.Forall₂ Rep args args') {x : Val} (hx : Naive.apply call' fns' fr' f' args' = some x) :
    Full (Inv c) (applyFn call fns fr f args) fun y => Rep y x := by
  match f, f', hf c with
  | .lib g, .lib g', h => exact h _ _ _ ha (by rw [← hr.1]; exact hx)
  | .user d b, .user d' b', ⟨h1, h2, h3⟩ =>
    subst h1 h2
    exact hr.2 _ _ _ _ _ _ _ _ _ hfr hF hR h3 ha hx

mutual

theorem repE (hc : CallStable (Inv c) call) (hr : CallRep c call call') {fns : Fns} {fns' : Naive.Funs} (hF : FnsOk fns) (hR : FnsRep fns fns')
    {fr : Frame} {fr' : Naive.Scope} (hfr : FrameRep fr fr') (ex : Expr) {x : Val} (hx : Naive.value R call' fns' fr' ex = some x) :
    Full (Inv c) (runE R call fns fr ex) fun y => Rep y x :=
  match ex with
  | .num n => by
    cases hx
    exact Full.pure rfl
  | .dec _ _ => by cases hx
  | .var x => by
    obtain ⟨o, ho, hv⟩ := hfr.find hx
    unfold runE getVar
    rw [ho]
    exact Full.pure hv
  | .str _ => by cases hx
  | .group ex => repE hc hr hF hR hfr ex hx
  | .bin op l r => by
    simp only [Naive.value, Option.bind_eq_bind, Option.bind_eq_some_iff] at hx
    obtain ⟨u, hu, v, hv, hx⟩ := hx
    refine Full.bind (repE hc hr hF hR hfr l hu) (fun a ha => Full.bind (repE hc hr hF hR hfr r hv) (fun b hb => ?_)
      fun b => (calm_runBin _ _ _ _).triple) fun a => Triple.bind' (stableE hc hF fr r).triple fun b => (calm_runBin _ _ _ _).triple
    unfold Naive.operate at hx
    by_cases hop : op = .at_
    · rw [if_pos hop] at hx
      subst hop
      rw [hr.1] at hx
      exact full_at (fun _ h => h.order) _ ha hb hx
    · rw [if_neg hop] at hx
      split at hx
      · rename_i hall
        cases hx
        refine full_runBin _ hop ha hb fun x hx y hy => ?_
        rw [List.all_eq_true] at hall
        have h1 := hall x hx
        rw [List.all_eq_true] at h1
        exact h1 y hy
      · cases hx
  | .ndm l r => by
    simp only [Naive.value, Option.bind_eq_bind, Option.bind_eq_some_iff, Option.some.injEq] at hx
    obtain ⟨u, hu, v, hv, rfl⟩ := hx
    exact Full.bind (repE hc hr hF hR hfr l hu) (fun a ha => Full.bind (repE hc hr hF hR hfr r hv) (fun b hb => full_roll ha hb)
      fun b => (Calm.roll _ _).triple) fun a => Triple.bind' (stableE hc hF fr r).triple fun b => (Calm.roll _ _).triple
  | .dm r => by
    simp only [Naive.value, Option.bind_eq_bind, Option.bind_eq_some_iff, Option.some.injEq] at hx
    obtain ⟨v, hv, rfl⟩ := hx
    exact Full.bind (repE hc hr hF hR hfr r hv) (fun b hb => full_roll (n := .num 1) (u := .num 1) rfl hb) fun b => (Calm.roll1 _).triple
  | .unary op ex => by
    simp only [Naive.value, Option.bind_eq_bind, Option.bind_eq_some_iff] at hx
    obtain ⟨v, hv, hx⟩ := hx
    exact Full.bind (repE hc hr hF hR hfr ex hv) (fun b hb => full_unary _ _ hb hx) fun b => (calm_runUnary _ _ _).triple
  | .hash ex => by
    simp only [Naive.value, Option.bind_eq_bind, Option.bind_eq_some_iff] at hx
    obtain ⟨v, hv, hx⟩ := hx
    exact Full.bind (repE hc hr hF hR hfr ex hv) (fun b hb => full_hash _ hb hx) fun b => (calm_runLen _ _).triple
  | .seq es => by
    simp only [Naive.value, Option.bind_eq_bind, Option.bind_eq_some_iff, Option.some.injEq] at hx
    obtain ⟨vs, hv, rfl⟩ := hx
    exact Full.bind (repElems hc hr hF hR hfr es hv) (fun os hos => Full.pure (getSeq_rep hos)) fun b => Triple.pure trivial
  | .call cs => by
    simp only [Naive.value, Option.bind_eq_bind, Option.bind_eq_some_iff] at hx
    obtain ⟨f', hf', args', ha', hx⟩ := hx
    obtain ⟨f, hf, hff⟩ := lookup_rep (P := fun a b => ∀ c : Config, FnRep (Inv c) c.table a b ∧ FnSafe (Inv c) c.table a b) hR hf'
    have e1 : runE R call fns fr (.call cs) = runArgs R call fns fr cs >>= fun args => applyFn call fns fr f args := by
      unfold runE getFn
      rw [hf]
      rfl
    rw [e1]
    exact Full.bind (repArgs hc hr hF hR hfr cs ha') (fun args ha => apply_rep hr hF hR hfr (fun c => (hff c).1) ha hx)
      fun args => (stable_apply hc hF fr hf args).triple

theorem repElems (hc : CallStable (Inv c) call) (hr : CallRep c call call') {fns : Fns} {fns' : Naive.Funs} (hF : FnsOk fns)
    (hR : FnsRep fns fns') {fr : Frame} {fr' : Naive.Scope} (hfr : FrameRep fr fr') (es : Elems) {x : List Val}
    (hx : Naive.values R call' fns' fr' es = some x) : Full (Inv c) (runElems R call fns fr es) fun y => List.Forall₂ Rep y x :=
  match es with
  | .nil => by
    cases hx
    exact Full.pure .nil
  | .expr ex es => by
    simp only [Naive.values, Option.bind_eq_bind, Option.bind_eq_some_iff, Option.some.injEq] at hx
    obtain ⟨u, hu, vs, hvs, rfl⟩ := hx
    exact Full.bind (repE hc hr hF hR hfr ex hu) (fun a ha => Full.bind (repElems hc hr hF hR hfr es hvs) (fun b hb => Full.pure (.cons ha hb))
      fun b => Triple.pure trivial) fun a => Triple.bind' (stableElems hc hF fr es).triple fun b => Triple.pure trivial
  | .range l r es => by
    simp only [Naive.values, Option.bind_eq_bind, Option.bind_eq_some_iff, Option.some.injEq] at hx
    obtain ⟨u, hu, v, hv, s, hs, vs, hvs, rfl⟩ := hx
    have t1 : ∀ s, Triple (Inv c) (do let items ← runElems R call fns fr es; pure (s :: items)) fun _ => True :=
      fun s => Triple.bind' (stableElems hc hF fr es).triple fun b => Triple.pure trivial
    exact Full.bind (repE hc hr hF hR hfr l hu) (fun a ha => Full.bind (repE hc hr hF hR hfr r hv) (fun b hb =>
      Full.bind (full_range ha hb hs) (fun s hs => Full.bind (repElems hc hr hF hR hfr es hvs) (fun b hb => Full.pure (.cons hs hb))
      fun b => Triple.pure trivial) t1) fun b => Triple.bind' (Calm.myRange _ _).triple t1)
      fun a => Triple.bind' (stableE hc hF fr r).triple fun b => Triple.bind' (Calm.myRange _ _).triple t1

theorem repArgs (hc : CallStable (Inv c) call) (hr : CallRep c call call') {fns : Fns} {fns' : Naive.Funs} (hF : FnsOk fns)
    (hR : FnsRep fns fns') {fr : Frame} {fr' : Naive.Scope} (hfr : FrameRep fr fr') (cs : CallParts) {x : List Val}
    (hx : Naive.arguments R call' fns' fr' cs = some x) : Full (Inv c) (runArgs R call fns fr cs) fun y => List.Forall₂ Rep y x :=
  match cs with
  | .nil => by
    cases hx
    exact Full.pure .nil
  | .word _ cs => repArgs hc hr hF hR hfr cs hx
  | .arg ex cs => by
    simp only [Naive.arguments, Option.bind_eq_bind, Option.bind_eq_some_iff, Option.some.injEq] at hx
    obtain ⟨u, hu, vs, hvs, rfl⟩ := hx
    exact Full.bind (repE hc hr hF hR hfr ex hu) (fun a ha => Full.bind (repArgs hc hr hF hR hfr cs hvs) (fun b hb => Full.pure (.cons ha hb))
      fun b => Triple.pure trivial) fun a => Triple.bind' (stableArgs hc hF fr cs).triple fun b => Triple.pure trivial

end

/-- What a text shows. -/
def TextRep : PyText → Naive.Text → Prop := List.Forall₂ fun
  | .inl a, .inl b => a = b
  | .inr o, .inr v => Rep o v
  | _, _ => False

/-- What an output is. -/
def OutRep : Obj × Option PyText → Val × Option Naive.Text → Prop
  | (o, none), (v, none) => Rep o v
  | (o, some t), (v, some u) => Rep o v ∧ TextRep t u
  | _, _ => False

theorem textRep_chars (s : List Char) {t : PyText} {u : Naive.Text} (h : TextRep t u) : TextRep (s.map .inl ++ t) (s.map .inl ++ u) := by
  induction s with
  | nil => exact h
  | cons a s ih => exact .cons rfl ih

theorem full_textOf {fr : Frame} {fr' : Naive.Scope} (hfr : FrameRep fr fr') {ps : List StrPart} {u : Naive.Text}
    (h : Naive.spell fr' ps = some u) : Full I (textOf R fr ps) fun t => TextRep t u := by
  induction ps generalizing u with
  | nil =>
    cases h
    exact Full.pure .nil
  | cons p ps ih =>
    cases p with
    | text s =>
      simp only [Naive.spell, Option.map_eq_some_iff] at h
      obtain ⟨u, hu, rfl⟩ := h
      exact Full.bind (ih hu) (fun t ht => Full.pure (textRep_chars s ht)) fun t => Triple.pure trivial
    | var x =>
      simp only [Naive.spell, Option.bind_eq_bind, Option.bind_eq_some_iff, Option.some.injEq] at h
      obtain ⟨v, hv, u, hu, rfl⟩ := h
      obtain ⟨o, ho, hr⟩ := hfr.find hv
      have e : textOf R fr (.var x :: ps) = textOf R fr ps >>= fun t => pure (.inr o :: t) := by
        rw [textOf, getVar, ho]
        rfl
      rw [e]
      exact Full.bind (ih hu) (fun t ht => Full.pure (.cons hr ht)) fun t => Triple.pure trivial

/-- What there is after a statement, its result, what it outputs and the settings. -/
def Gives (C : Config → Prop) (p : Naive.Point) (q : Naive.Point × Option Val) (r : State × Option Obj) (new : List (Obj × Option PyText))
    (c' : Config) : Prop :=
  FnsRep r.1.fns q.1.fns ∧ FrameRep r.1.fr q.1.fr ∧ RepO r.2 q.2 ∧ (c' = q.1.conf ∧ C c') ∧
    ∃ vs, q.1.outs = p.outs ++ vs ∧ List.Forall₂ OutRep new vs

/-- With calls deep enough, a statement gives this. -/
def Ends (C : Config → Prop) (p : Naive.Point) (q : Naive.Point × Option Val) (m : ℕ → State → M (State × Option Obj)) : Prop :=
  C q.1.conf ∧ ∃ N, ∀ n, N ≤ n → ∀ s, FnsOk s.fns → FnsRep s.fns p.fns → FrameRep s.fr p.fr → Trip p.conf (m n s) (Gives C p q)

/-- What is known about calls, where the settings may be those in `C`, and calls may be so deep. -/
structure Ctx (top : Bool) (I : Settings → Prop) (C : Config → Prop) (call : ℕ → RunCall) (call' : Config → Naive.Call) : Prop where
  stable : ∀ n, CallStable I (call n)
  inv : ∀ c, C c → ∀ st, Inv c st → I st
  each : ∀ n c, C c → CallStable (Inv c) (call n)
  rep : ∀ c, C c → ∃ N, ∀ n, N ≤ n → CallRep c (call n) (call' c)
  all : top = true → ∀ c, C c
  any : top = true → ∀ st, I st

section
variable {C : Config → Prop} {family : ℕ → RunCall} {calls : Config → Naive.Call}

theorem Gives.nothing {p : Naive.Point} {r : State × Option Obj} {fns : Naive.Funs} {fr : Naive.Scope} {v : Option Val} (hC : C p.conf)
    (h1 : FnsRep r.1.fns fns) (h2 : FrameRep r.1.fr fr) (h3 : RepO r.2 v) : Gives C p (⟨fns, fr, p.outs, p.conf⟩, v) r [] p.conf :=
  ⟨h1, h2, h3, ⟨rfl, hC⟩, [], (List.append_nil _).symm, .nil⟩

theorem Gives.trans {p : Naive.Point} {q q' : Naive.Point × Option Val} {r r' : State × Option Obj} {new new' : List (Obj × Option PyText)}
    {c' c'' : Config} (h : Gives C p q r new c') (h' : Gives C q.1 q' r' new' c'') : Gives C p q' r' (new ++ new') c'' := by
  obtain ⟨_, _, _, _, vs, e1, f1⟩ := h
  obtain ⟨a, b, c, d, vs', e2, f2⟩ := h'
  exact ⟨a, b, c, d, vs ++ vs', by rw [e2, e1, List.append_assoc], List.rel_append f1 f2⟩

theorem trip_emit (o : Obj) (n : Option PyText) : Trip c (emitOutput o n) fun _ new c' => new = [(o, n)] ∧ c' = c :=
  fun _ _ hi _ => .inr ⟨_, _, c, rfl, rfl, hi, rfl, rfl⟩

theorem Trip.mono {m : M β} {P Q : β → List (Obj × Option PyText) → Config → Prop} (h : Trip c m P) (hq : ∀ x new c', P x new c' → Q x new c') :
    Trip c m Q := by
  intro w hw hi h0
  rcases h w hw hi h0 with he | ⟨x, new, c', h1, h2, h3, h4⟩
  · exact .inl he
  · exact .inr ⟨x, new, c', h1, h2, h3, hq x new c' h4⟩

/-- Going on after a statement without result. -/
theorem trip_next {top : Bool} {m : M (State × Option Obj)} {f : State → M (State × Option Obj)} {p : Naive.Point}
    {q q' : Naive.Point × Option Val} (F : Naive.Point → Option (Naive.Point × Option Val)) (hI : ∀ st, Inv p.conf st → I st)
    (sm : Stable I top m fun r => FnsOk r.1.fns)
    (sf : ∀ s, FnsOk s.fns → Stable I top (f s) fun r => FnsOk r.1.fns) (hm : Trip p.conf m (Gives C p q))
    (hf : ∀ s q', C q.1.conf → FnsOk s.fns → FnsRep s.fns q.1.fns → FrameRep s.fr q.1.fr → F q.1 = some q' → Trip q.1.conf (f s) (Gives C q.1 q'))
    (hq : (match q.2 with
      | some v => some (q.1, some v)
      | none => F q.1) = some q') :
    Trip p.conf (m >>= fun r => match r.2 with
      | some v => pure (r.1, some v)
      | none => f r.1) (Gives C p q') := by
  refine Trip.bind (top := top) (T := fun r => FnsOk r.1.fns) hI sm (fun r hr => ?_) hm ?_
  · rcases r.2 with _ | v
    · exact sf _ hr
    · exact stable_pure hr
  · rintro ⟨s, o⟩ new c' hs hg
    obtain ⟨p', v⟩ := q
    obtain ⟨hc', hC⟩ := hg.2.2.2.1
    subst hc'
    cases o with
    | none =>
      cases v with
      | some v => exact absurd hg.2.2.1 id
      | none => exact (hf s q' hC hs hg.1 hg.2.1 hq).mono fun r' new' c' h => hg.trans h
    | some o =>
      cases v with
      | none => exact absurd hg.2.2.1 id
      | some v =>
        cases hq
        refine trip_pure ?_
        rw [List.append_nil]
        exact hg

theorem ends_next {top : Bool} {m f : ℕ → State → M (State × Option Obj)} {p : Naive.Point} {q q' : Naive.Point × Option Val}
    (F : Naive.Point → Option (Naive.Point × Option Val)) (hI : ∀ st, Inv p.conf st → I st)
    (sm : ∀ n s, FnsOk s.fns → Stable I top (m n s) fun r => FnsOk r.1.fns)
    (sf : ∀ n s, FnsOk s.fns → Stable I top (f n s) fun r => FnsOk r.1.fns) (hm : Ends C p q m)
    (hf : C q.1.conf → ∀ q', F q.1 = some q' → Ends C q.1 q' f)
    (hq : (match q.2 with
      | some v => some (q.1, some v)
      | none => F q.1) = some q') :
    Ends C p q' fun n s => m n s >>= fun r => match r.2 with
      | some v => pure (r.1, some v)
      | none => f n r.1 := by
  obtain ⟨hC, N, hN⟩ := hm
  by_cases h2 : q.2 = none
  · have hq' : F q.1 = some q' := by rw [h2] at hq; exact hq
    obtain ⟨hC', N', hN'⟩ := hf hC q' hq'
    refine ⟨hC', max N N', fun n hn s hs hR hfr => ?_⟩
    refine trip_next F hI (sm n s hs) (sf n) (hN n (le_trans (le_max_left _ _) hn) s hs hR hfr) (fun s q'' _ hs hR hfr h => ?_) hq
    rw [hq'] at h
    cases h
    exact hN' n (le_trans (le_max_right _ _) hn) s hs hR hfr
  · obtain ⟨p', v⟩ := q
    cases v with
    | none => exact absurd rfl h2
    | some v =>
      cases hq
      refine ⟨hC, N, fun n hn s hs hR hfr => ?_⟩
      refine Trip.bind (top := top) (T := fun r => FnsOk r.1.fns) hI (sm n s hs) (fun r hr => ?_) (hN n hn s hs hR hfr) ?_
      · rcases r.2 with _ | v
        · exact sf _ _ hr
        · exact stable_pure hr
      · rintro ⟨s, o⟩ new c' hs hg
        obtain ⟨hc', hC⟩ := hg.2.2.2.1
        subst hc'
        cases o with
        | none => exact absurd hg.2.2.1 id
        | some o =>
          refine trip_pure ?_
          rw [List.append_nil]
          exact hg

theorem ends_loop {top : Bool} {f : ℕ → State → ℤ → M (State × Option Obj)} {F : Naive.Point → ℤ → Option (Naive.Point × Option Val)}
    (hI : ∀ c, C c → ∀ st, Inv c st → I st) (sf : ∀ n s k, FnsOk s.fns → Stable I top (f n s k) fun r => FnsOk r.1.fns)
    (hf : ∀ k p q, C p.conf → F p k = some q → Ends C p q fun n s => f n s k)
    (ns : List ℤ) {p : Naive.Point} {q : Naive.Point × Option Val} (hC : C p.conf) (hq : Naive.loop F ns p = some q) :
    Ends C p q fun n s => runLoop (f n) ns s := by
  induction ns generalizing p q with
  | nil =>
    cases hq
    exact ⟨hC, 0, fun n _ s hs hR hfr => trip_pure (Gives.nothing hC hR hfr trivial)⟩
  | cons k ns ih =>
    simp only [Naive.loop, Option.bind_eq_bind, Option.bind_eq_some_iff] at hq
    obtain ⟨q1, h1, hq⟩ := hq
    exact ends_next (m := fun n s => f n s k) (f := fun n s => runLoop (f n) ns s) (Naive.loop F ns) (hI _ hC) (fun n s hs => sf n s k hs)
      (fun n s hs => stable_loop (sf n) ns hs) (hf k p q1 hC h1) (fun hC q' h => ih hC h) hq

/-! ### Settings -/

theorem textOf_written (R : Rules) (f : Frame) {ps : List StrPart} {n : List Char} (h : Naive.written ps = some n) :
    textOf R f ps = pure (n.map .inl) := by
  induction ps generalizing n with
  | nil => cases h; rfl
  | cons p ps ih =>
    cases p with
    | var x => cases h
    | text s =>
      simp only [Naive.written, Option.map_eq_some_iff] at h
      obtain ⟨m, hm, rfl⟩ := h
      rw [textOf, ih hm, List.map_append]
      rfl

theorem plainText_map (n : List Char) : plainText (n.map .inl) = some n := by
  induction n with
  | nil => rfl
  | cons a n ih => rw [List.map_cons, plainText, ih]; rfl

theorem trip_setSetting {n : List Char} {v : PyAny} {c' : Config} (h : ∀ st, Inv c st → ∃ v' st', checkedValue (String.ofList n) v = .ok v' ∧
    storeSetting st n v' = some st' ∧ Inv c' st') : Trip c (setSetting n v) fun _ new d => new = [] ∧ d = c' := by
  intro w _ hi _
  obtain ⟨v', st', h1, h2, h3⟩ := h _ hi
  have e : setSetting n v w = (.ok (), { w with settings := st' }) := by
    unfold setSetting
    rw [h1]
    simp only
    rw [h2]
  rw [e]
  exact .inr ⟨(), [], c', rfl, (List.append_nil _).symm, h3, rfl, rfl⟩

theorem trip_setStr {n t : List Char} {p : Naive.Point} {q : Naive.Point × Option Val} (hq : Naive.setText n t p = some q) :
    q = (⟨p.fns, p.fr, p.outs, q.1.conf⟩, none) ∧
      Trip p.conf (settingsSetStr (n.map .inl) (t.map .inl)) fun _ new c' => new = [] ∧ c' = q.1.conf := by
  unfold settingsSetStr
  rw [plainText_map, plainText_map]
  unfold Naive.setText at hq
  split at hq
  · rename_i hn
    obtain ⟨rfl, ht⟩ := hn
    cases hq
    refine ⟨rfl, trip_setSetting fun st hi => ?_⟩
    rw [List.mem_cons, List.mem_singleton] at ht
    rcases ht with rfl | rfl
    · exact ⟨.str "highest first", { st with positionOrder := .highestFirst }, by decide +kernel, rfl, hi.depth, hi.left, rfl, hi.explode⟩
    · exact ⟨.str "lowest first", { st with positionOrder := .lowestFirst }, by decide +kernel, rfl, hi.depth, hi.left, rfl, hi.explode⟩
  split at hq
  swap
  · cases hq
  · rename_i hn
    obtain ⟨hn, ht⟩ := hn
    cases hq
    refine ⟨rfl, trip_setSetting fun st hi => ?_⟩
    have hl : lowerChars (String.ofList t) = t.map Char.toLower := by rw [lowerChars, String.toList_ofList]
    have hb : ∃ b, boolValue (.str (String.ofList t)) = .ok (.bool b) := by
      have := of_decide_eq_true ht
      rw [List.mem_cons, List.mem_singleton] at this
      unfold boolValue
      simp only
      rw [hl, if_pos this]
      exact ⟨_, rfl⟩
    obtain ⟨b, hb⟩ := hb
    rw [List.mem_cons, List.mem_singleton] at hn
    rcases hn with rfl | rfl
    · exact ⟨.bool b, { st with rvTrunc := b }, hb, rfl, hi.depth, hi.left, hi.order, hi.explode⟩
    · exact ⟨.bool b, { st with rvIgnoreZeroProbs := b }, hb, rfl, hi.depth, hi.left, hi.order, hi.explode⟩

theorem trip_setNum {n : List Char} {m : ℤ} (h0 : 0 < m)
    (hn : n ∈ ["explode depth".toList, "maximum function depth".toList, "DEFAULT_OUTPUT_WIDTH".toList]) :
    Trip c (settingsSetObj (n.map .inl) (.num m)) fun _ new c' => new = [] ∧ c' = c.set n m := by
  unfold settingsSetObj
  rw [plainText_map]
  have hp : (PyAny.int m).isPosInt = true := by simpa [PyAny.isPosInt] using h0
  simp only [List.mem_cons, List.not_mem_nil, or_false] at hn
  rcases hn with rfl | rfl | rfl
  · refine trip_setSetting (n := "explode depth".toList) (v := .int m) fun st hi => ⟨.int m, { st with explodeDepth := m }, ?_, rfl, ?_⟩
    · have : checkedValue (String.ofList "explode depth".toList) (.int m) = if (PyAny.int m).isPosInt then .ok (.int m) else .error .assertion := rfl
      rw [this, if_pos hp]
    · exact ⟨hi.depth, hi.left, hi.order, rfl⟩
  · refine trip_setSetting (n := "maximum function depth".toList) (v := .int m) fun st hi => ⟨.int m, { st with maxFuncDepth := m }, ?_, rfl, ?_⟩
    · have : checkedValue (String.ofList "maximum function depth".toList) (.int m) =
        if (PyAny.int m).isPosInt then .ok (.int m) else .error .assertion := rfl
      rw [this, if_pos hp]
    · have a := hi.depth
      have b := hi.left
      refine ⟨rfl, ?_, hi.order, hi.explode⟩
      change m - st.currDepth = m - (c.depth - c.left)
      omega
  · refine trip_setSetting (n := "DEFAULT_OUTPUT_WIDTH".toList) (v := .int m) fun st hi => ⟨.int m, { st with defaultOutputWidth := m }, ?_, rfl, ?_⟩
    · have : checkedValue (String.ofList "DEFAULT_OUTPUT_WIDTH".toList) (.int m) =
        if (PyAny.int m).isPosInt then .ok (.int m) else .error .assertion := rfl
      rw [this, if_pos hp]
    · exact ⟨hi.depth, hi.left, hi.order, hi.explode⟩

theorem repSet {top : Bool} (hx : Ctx top I C family calls) (n : List StrPart) (ex : Expr) (hp : Naive.plainS top (.set n ex) = true)
    {p : Naive.Point} {q : Naive.Point × Option Val} (hC : C p.conf)
    (hq : Naive.statement R calls (.set n ex) p = some q) : Ends C p q fun k s => runS R (family k) (.set n ex) s := by
  have ht : top = true := hp
  subst ht
  obtain ⟨N, hN⟩ := hx.rep _ hC
  refine ⟨hx.all rfl _, N, fun k hk s hs hR hfr => ?_⟩
  have e0 : runS R (family k) (.set n ex) s = runSet R (family k) s n ex >>= fun _ => pure (s, none) := by cases ex <;> rfl
  simp only [e0]
  have sm : Stable I true (runSet R (family k) s n ex) fun _ => True := stable_set (hx.any rfl) (hx.stable k) s hs n ex
  by_cases hstr : ∃ t, ex = .str t
  · obtain ⟨t, rfl⟩ := hstr
    simp only [Naive.statement, Option.bind_eq_bind, Option.bind_eq_some_iff] at hq
    obtain ⟨name, hn, text, ht, hq⟩ := hq
    obtain ⟨hq1, hq2⟩ := trip_setStr hq
    refine Trip.bind (top := true) (T := fun _ => True) (P := fun _ new c' => new = [] ∧ c' = q.1.conf) (hx.inv _ hC) sm (fun _ _ => stable_pure trivial) ?_ ?_
    · change Trip p.conf (textOf R s.fr n >>= fun a => textOf R s.fr t >>= fun b => settingsSetStr a b) _
      rw [textOf_written R s.fr hn, textOf_written R s.fr ht]
      exact hq2
    · rintro _ _ _ _ ⟨rfl, rfl⟩
      refine trip_pure ?_
      rw [hq1]
      exact ⟨hR, hfr, trivial, ⟨rfl, hx.all rfl _⟩, [], (List.append_nil _).symm, .nil⟩
  · have e1 : Naive.statement R calls (.set n ex) p = (do
        let name ← Naive.written n
        let v ← Naive.value R (calls p.conf) p.fns p.fr ex
        Naive.setValue name v p) := by
      cases ex <;> first | rfl | exact absurd ⟨_, rfl⟩ hstr
    have e2 : runSet R (family k) s n ex = (do
        let n ← textOf R s.fr n
        let o ← runE R (family k) s.fns s.fr ex
        settingsSetObj n o) := by
      cases ex <;> first | rfl | exact absurd ⟨_, rfl⟩ hstr
    rw [e1] at hq
    simp only [Option.bind_eq_bind, Option.bind_eq_some_iff] at hq
    obtain ⟨name, hn, v, hv, hq⟩ := hq
    unfold Naive.setValue at hq
    split at hq
    swap
    · cases hq
    rename_i m
    split at hq
    swap
    · cases hq
    rename_i hm
    cases hq
    refine Trip.bind (top := true) (T := fun _ => True) (P := fun _ new c' => new = [] ∧ c' = p.conf.set name m) (hx.inv _ hC) sm
      (fun _ _ => stable_pure trivial) ?_ ?_
    · rw [e2, textOf_written R s.fr hn]
      change Trip p.conf (runE R (family k) s.fns s.fr ex >>= fun o => settingsSetObj (name.map .inl) o) _
      refine Trip.after (top := true) (T := fun _ => True) (hx.inv _ hC) (stableE (hx.stable k) hs s.fr ex) (fun o => stable_setObj (hx.any rfl) _ o)
        (repE (hx.each k _ hC) (hN k hk) hs hR hfr ex hv) fun o ho => ?_
      rw [ho.num_inv]
      exact trip_setNum hm.1 hm.2
    · rintro _ _ _ _ ⟨rfl, rfl⟩
      exact trip_pure ⟨hR, hfr, trivial, ⟨rfl, hx.all rfl _⟩, [], (List.append_nil _).symm, .nil⟩

/-- Alternatives: what is known of the one that is taken. -/
theorem ends_if {top : Bool} (hx : Ctx top I C family calls) (ex : Expr) {p : Naive.Point} {q : Naive.Point × Option Val} (hC : C p.conf) {v : Val}
    (hv : Naive.value R (calls p.conf) p.fns p.fr ex = some v) {t : Bool} (ht : Naive.truth v = some t) {f g : ℕ → State → M (State × Option Obj)}
    (sf : ∀ n s, FnsOk s.fns → Stable I top (f n s) fun r => FnsOk r.1.fns) (sg : ∀ n s, FnsOk s.fns → Stable I top (g n s) fun r => FnsOk r.1.fns)
    (h : Ends C p q fun n s => if t = true then f n s else g n s) : Ends C p q fun n s => (do
      let o ← runE R (family n) s.fns s.fr ex
      let t ← truthOp o
      if t then f n s else g n s) := by
  obtain ⟨N, hN⟩ := hx.rep _ hC
  obtain ⟨hC', N', hN'⟩ := h
  refine ⟨hC', max N N', fun n hn s hs hR hfr => ?_⟩
  have sf' : ∀ b : Bool, Stable I top (if b = true then f n s else g n s) fun r => FnsOk r.1.fns := by
    intro b
    cases b
    · exact sg n s hs
    · exact sf n s hs
  refine Trip.after (hx.inv _ hC) (stableE (hx.stable n) hs s.fr ex) (fun o => (stable_calm (Calm.truthOp o)).bind fun t _ => sf' t)
    (repE (hx.each n _ hC) (hN n (le_trans (le_max_left _ _) hn)) hs hR hfr ex hv) fun o ho => ?_
  refine Trip.after (hx.inv _ hC) (stable_calm (Calm.truthOp o)) sf' (full_truth ho ht) fun b hb => ?_
  subst hb
  exact hN' n (le_trans (le_max_right _ _) hn) s hs hR hfr

mutual

theorem repS {top : Bool} (hx : Ctx top I C family calls) (st : Stmt) (hp : Naive.plainS top st = true)
    {p : Naive.Point} {q : Naive.Point × Option Val} (hC : C p.conf)
    (hq : Naive.statement R calls st p = some q) : Ends C p q fun n s => runS R (family n) st s :=
  match st with
  | .output ex => by
    simp only [Naive.statement, Option.bind_eq_bind, Option.bind_eq_some_iff, Option.some.injEq] at hq
    obtain ⟨v, hv, rfl⟩ := hq
    obtain ⟨N, hN⟩ := hx.rep _ hC
    refine ⟨hC, N, fun n hn s hs hR hfr => ?_⟩
    have ht : top = true := hp
    subst ht
    have sf : ∀ o, Stable I true (do emitOutput o none; pure ((s, none) : State × Option Obj)) fun _ => True :=
      fun o => (stable_emit o none).bind fun _ _ => stable_pure trivial
    refine Trip.after (hx.inv _ hC) (stableE (hx.stable n) hs s.fr ex) sf (repE (hx.each n _ hC) (hN n hn) hs hR hfr ex hv) fun o ho => ?_
    refine Trip.bind (top := true) (T := fun _ => True) (hx.inv _ hC) (stable_emit o none) (fun _ _ => stable_pure trivial) (trip_emit o none) ?_
    rintro _ _ _ _ ⟨rfl, rfl⟩
    exact trip_pure ⟨hR, hfr, trivial, ⟨rfl, hC⟩, [(v, none)], rfl, .cons ho .nil⟩
  | .outputNamed ex name => by
    simp only [Naive.statement, Option.bind_eq_bind, Option.bind_eq_some_iff, Option.some.injEq] at hq
    obtain ⟨v, hv, u, hu, rfl⟩ := hq
    obtain ⟨N, hN⟩ := hx.rep _ hC
    refine ⟨hC, N, fun n hn s hs hR hfr => ?_⟩
    have sf : ∀ o t, Stable I true (do emitOutput o (some t); pure ((s, none) : State × Option Obj)) fun _ => True :=
      fun o t => (stable_emit o _).bind fun _ _ => stable_pure trivial
    refine Trip.after (top := true) (T := fun _ => True) (hx.inv _ hC) (stableE (hx.stable n) hs s.fr ex)
      (fun o => (stable_calm (calm_textOf R s.fr name)).bind fun t _ => sf o t) (repE (hx.each n _ hC) (hN n hn) hs hR hfr ex hv) fun o ho => ?_
    refine Trip.after (hx.inv _ hC) (stable_calm (calm_textOf R s.fr name)) (fun t => sf o t) (full_textOf hfr hu) fun t ht => ?_
    refine Trip.bind (top := true) (T := fun _ => True) (hx.inv _ hC) (stable_emit o _) (fun _ _ => stable_pure trivial) (trip_emit o _) ?_
    rintro _ _ _ _ ⟨rfl, rfl⟩
    exact trip_pure ⟨hR, hfr, trivial, ⟨rfl, hC⟩, [(v, some u)], rfl, .cons ⟨ho, ht⟩ .nil⟩
  | .set n ex => repSet hx n ex hp hC hq
  | .function d body => by
    cases hq
    exact ⟨hC, 0, fun n _ s hs hR hfr => trip_pure (Gives.nothing hC (.cons ⟨rfl, fun _ => ⟨⟨rfl, rfl, hp⟩, trivial⟩⟩ hR) hfr trivial)⟩
  | .result ex => by
    simp only [Naive.statement, Option.bind_eq_bind, Option.bind_eq_some_iff, Option.some.injEq] at hq
    obtain ⟨v, hv, rfl⟩ := hq
    obtain ⟨N, hN⟩ := hx.rep _ hC
    refine ⟨hC, N, fun n hn s hs hR hfr => ?_⟩
    exact Trip.after (top := true) (T := fun _ => True) (hx.inv _ hC) (stableE (hx.stable n) hs s.fr ex) (fun o => stable_pure trivial)
      (repE (hx.each n _ hC) (hN n hn) hs hR hfr ex hv) fun o ho => trip_pure (Gives.nothing hC hR hfr ho)
  | .cond c body rest => by
    have hp' : Naive.plainB top body = true ∧ Naive.plainE top rest = true := by simpa [Naive.plainS] using hp
    simp only [Naive.statement, Option.bind_eq_bind, Option.bind_eq_some_iff] at hq
    obtain ⟨v, hv, t, ht, hq⟩ := hq
    refine ends_if hx c hC hv ht (fun n s hs => stableB (hx.stable n) hx.any body hp'.1 s hs)
      (fun n s hs => stableEl (hx.stable n) hx.any rest hp'.2 s hs) ?_
    cases t
    · exact repEl hx rest hp'.2 hC hq
    · exact repB hx body hp'.1 hC hq
  | .loop x ex body => by
    simp only [Naive.statement, Option.bind_eq_bind, Option.bind_eq_some_iff] at hq
    obtain ⟨v, hv, ns, hns, hq⟩ := hq
    obtain ⟨N, hN⟩ := hx.rep _ hC
    have sb : ∀ (n : ℕ) (s : State) (k : ℤ), FnsOk s.fns →
        Stable I top (runB R (family n) body { s with fr := s.fr.set x (.num k) }) fun r => FnsOk r.1.fns :=
      fun n s k hs => stableB (hx.stable n) hx.any body hp { s with fr := s.fr.set x (.num k) } hs
    obtain ⟨hC', N', hN'⟩ := ends_loop (f := fun n s k => runB R (family n) body { s with fr := s.fr.set x (.num k) }) hx.inv sb
      (fun k p q hC h => by
        obtain ⟨hC', N, hN⟩ := repB hx body hp (p := { p with fr := p.fr.set x (.num k) }) hC h
        exact ⟨hC', N, fun n hn s hs hR hfr => hN n hn { s with fr := s.fr.set x (.num k) } hs hR (hfr.set x rfl)⟩) ns hC hq
    refine ⟨hC', max N N', fun n hn s hs hR hfr => ?_⟩
    refine Trip.after (hx.inv _ hC) (stableE (hx.stable n) hs s.fr ex) (fun o => (stable_calm (Calm.iterOp o)).bind fun ns _ => stable_loop (sb n) ns hs)
      (repE (hx.each n _ hC) (hN n (le_trans (le_max_left _ _) hn)) hs hR hfr ex hv) fun o ho => ?_
    refine Trip.after (hx.inv _ hC) (stable_calm (Calm.iterOp o)) (fun ns => stable_loop (sb n) ns hs) (full_iter ho hns) fun l hl => ?_
    subst hl
    exact hN' n (le_trans (le_max_right _ _) hn) s hs hR hfr
  | .assign x ex => by
    simp only [Naive.statement, Option.bind_eq_bind, Option.bind_eq_some_iff, Option.some.injEq] at hq
    obtain ⟨v, hv, rfl⟩ := hq
    obtain ⟨N, hN⟩ := hx.rep _ hC
    refine ⟨hC, N, fun n hn s hs hR hfr => ?_⟩
    exact Trip.after (top := true) (T := fun _ => True) (hx.inv _ hC) (stableE (hx.stable n) hs s.fr ex) (fun o => stable_pure trivial)
      (repE (hx.each n _ hC) (hN n hn) hs hR hfr ex hv) fun o ho => trip_pure (Gives.nothing hC hR (hfr.set x ho) trivial)

theorem repB {top : Bool} (hx : Ctx top I C family calls) (b : Block) (hp : Naive.plainB top b = true)
    {p : Naive.Point} {q : Naive.Point × Option Val} (hC : C p.conf) (hq : Naive.block R calls b p = some q) :
    Ends C p q fun n s => runB R (family n) b s :=
  match b with
  | .nil => by
    cases hq
    exact ⟨hC, 0, fun n _ s hs hR hfr => trip_pure (Gives.nothing hC hR hfr trivial)⟩
  | .cons st b => by
    have hp' : Naive.plainS top st = true ∧ Naive.plainB top b = true := by simpa [Naive.plainB] using hp
    simp only [Naive.block, Option.bind_eq_bind, Option.bind_eq_some_iff] at hq
    obtain ⟨q1, h1, hq⟩ := hq
    exact ends_next (m := fun n s => runS R (family n) st s) (f := fun n s => runB R (family n) b s) (Naive.block R calls b) (hx.inv _ hC)
      (fun n s hs => stableS (hx.stable n) hx.any st hp'.1 s hs) (fun n s hs => stableB (hx.stable n) hx.any b hp'.2 s hs) (repS hx st hp'.1 hC h1)
      (fun hC q' h => repB hx b hp'.2 hC h) hq

theorem repEl {top : Bool} (hx : Ctx top I C family calls) (b : Else) (hp : Naive.plainE top b = true)
    {p : Naive.Point} {q : Naive.Point × Option Val} (hC : C p.conf) (hq : Naive.alternatives R calls b p = some q) :
    Ends C p q fun n s => runElse R (family n) b s :=
  match b with
  | .done => by
    cases hq
    exact ⟨hC, 0, fun n _ s hs hR hfr => trip_pure (Gives.nothing hC hR hfr trivial)⟩
  | .else_ b => repB hx b hp hC hq
  | .elif c body rest => by
    have hp' : Naive.plainB top body = true ∧ Naive.plainE top rest = true := by simpa [Naive.plainE] using hp
    simp only [Naive.alternatives, Option.bind_eq_bind, Option.bind_eq_some_iff] at hq
    obtain ⟨v, hv, t, ht, hq⟩ := hq
    refine ends_if hx c hC hv ht (fun n s hs => stableB (hx.stable n) hx.any body hp'.1 s hs)
      (fun n s hs => stableEl (hx.stable n) hx.any rest hp'.2 s hs) ?_
    cases t
    · exact repEl hx rest hp'.2 hC hq
    · exact repB hx body hp'.1 hC hq

end

end

theorem callUser_left (R : Rules) (c : Config) (k : ℤ) (n : ℕ) : Naive.callUser R { c with left := k } n = Naive.callUser R c n := by
  induction n with
  | zero => rfl
  | succ n ih => unfold Naive.callUser; rw [ih]; rfl

theorem callRep (R : Rules) (n : ℕ) (c : Config) (hn : c.left.toNat < n) : CallRep c (runCall R n) (Naive.callIn R c) := by
  induction n generalizing c with
  | zero => exact absurd hn (Nat.not_lt_zero _)
  | succ n ih =>
    refine ⟨by unfold Naive.callIn; cases c.left.toNat <;> rfl, ?_⟩
    intro fr fr' fns fns' d body args args' x hfr hF hR hb ha hx
    have hs : ∀ os, Stable (Inv (deeper c)) false (do
        let r ← runB R (runCall R n) body ⟨fns, enter R fr d body os⟩
        pure r.2) fun _ => True :=
      fun os => (stableB (callStable R n (deeper c)) (fun h => by cases h) body hb _ hF).bind fun _ _ => stable_pure trivial
    refine full_depthCall (Stable.castCall hs _) (fun h0 => ?_) fun h1 => ?_
    · rw [Naive.callIn, Int.toNat_of_nonpos h0] at hx
      cases hx
      exact rfl
    · obtain ⟨j, hj⟩ : ∃ j, c.left.toNat = j + 1 := ⟨c.left.toNat - 1, by omega⟩
      have hj' : c.left - 1 = j := by omega
      rw [Naive.callIn, hj] at hx
      refine full_castRep (zip_repA _ ha) (fun os vs r hos hr => ?_) hx
      simp only [Option.bind_eq_bind, Option.bind_eq_some_iff, Option.some.injEq] at hr
      obtain ⟨q, hq, rfl⟩ := hr
      have hd : ({ c with left := j } : Config) = deeper c := by rw [deeper, hj']
      have hcall : (fun _ : Config => Naive.callUser R c j) = fun _ => Naive.callIn R (deeper c) := by
        funext _
        rw [Naive.callIn, deeper, callUser_left R c (c.left - 1)]
        simp only [hj', Int.toNat_natCast]
      rw [hd, hcall] at hq
      have hn' : (deeper c).left.toNat < n := by simp only [deeper]; omega
      have ctx : Ctx false (Inv (deeper c)) (fun c' => c' = deeper c) (fun _ => runCall R n) fun _ => Naive.callIn R (deeper c) :=
        ⟨fun _ => callStable R n (deeper c), fun _ h _ hi => h ▸ hi, fun _ c' h => h ▸ callStable R n (deeper c),
          fun c' h => ⟨0, fun _ _ => h ▸ ih (deeper c) hn'⟩, (fun h => by cases h), (fun h => by cases h)⟩
      obtain ⟨_, N, hN⟩ := repB (R := R) ctx body hb (p := ⟨fns', Naive.begin' R fr' d body vs, [], deeper c⟩) rfl hq
      have hT := full_trip (P := fun r => RepO r.2 q.2)
        (stableB (R := R) (callStable R n (deeper c)) (top := false) (fun h => by cases h) body hb ⟨fns, enter R fr d body os⟩ hF)
        (hN N (le_refl _) ⟨fns, enter R fr d body os⟩ hF hR (hfr.enter R d body hos)) fun r new c' h => h.2.2.1
      exact Full.bind hT (fun r hr => Full.pure hr) fun _ => Triple.pure trivial

theorem fnsRep_library : FnsRep libraryFns Naive.library := by
  have h : ∀ c, _ := fun c : Config => library_rep (I := Inv c) (e := c.table) (fun _ h => h.order) fun _ h => h.explode
  have h0 := h ⟨0, false, 0, 0⟩
  unfold FnsRep
  rw [List.forall₂_iff_get] at h0 ⊢
  refine ⟨h0.1, fun i h1 h2 => ⟨(h0.2 i h1 h2).1, fun c => ?_⟩⟩
  have hk := h c
  have hs := library_safe (I := Inv c) (e := c.table) (fun _ h => h.order) fun _ h => h.explode
  rw [List.forall₂_iff_get] at hk hs
  exact ⟨(hk.2 i h1 h2).2, hs.2 i h1 h2⟩

/-- A program, from its beginning. -/
theorem rep_run {R : Rules} {c : Config} {b : Block} {vs : List (Val × Option Naive.Text)} (hv : Naive.outputs R c b = some vs) :
    ∃ N, ∀ n, N ≤ n → ∀ w, Reachable w → Inv c w.settings → (run R n b w).2.warns = 0 →
      (run R n b w).1 = .error .overflow ∨ ∃ outs, (run R n b w).1 = .ok outs ∧ List.Forall₂ OutRep outs vs := by
  unfold Naive.outputs at hv
  by_cases hp : Naive.plainB true b = true
  swap
  · rw [if_neg hp] at hv
    cases hv
  rw [if_pos hp] at hv
  rw [Option.map_eq_some_iff] at hv
  obtain ⟨q, hq, rfl⟩ := hv
  have hF : FnsOk (if R.lib then libraryFns else []) := by
    split
    · exact fnsOk_library
    · exact fun f hf => by cases hf
  have hR : FnsRep (if R.lib then libraryFns else []) (if R.lib then Naive.library else []) := by
    split
    · exact fnsRep_library
    · exact .nil
  have ctx : Ctx true (fun _ => True) (fun _ => True) (runCall R) (Naive.callIn R) :=
    ⟨callStable_any R, fun _ _ _ _ => trivial, fun n c _ => callStable R n c, fun c _ => ⟨c.left.toNat + 1, fun n hn => callRep R n c hn⟩,
      fun _ _ => trivial, fun _ _ => trivial⟩
  obtain ⟨_, N, T⟩ := repB (R := R) ctx b hp (p := ⟨if R.lib then Naive.library else [], ⟨none, [], []⟩, [], c⟩) trivial hq
  refine ⟨N, fun n hn w hw hi h0 => ?_⟩
  have hw' : Reachable { w with outs := [] } := hw.effects w.depthMsgs w.trace [] w.dicts
  have T' : _ → _ := T n hn ⟨if R.lib then libraryFns else [], ⟨none, [], []⟩⟩ hF hR ⟨rfl, .nil, .nil⟩ _ hw' hi
  unfold run at h0 ⊢
  rw [M.bind_apply] at h0 ⊢
  simp only [M.modify] at h0 ⊢
  rw [M.bind_apply] at h0 ⊢
  rcases hr : runB R (runCall R n) b ⟨if R.lib then libraryFns else [], ⟨none, [], []⟩⟩ { w with outs := [] } with ⟨r, w'⟩
  simp only [hr] at T'
  rw [hr] at h0
  cases r with
  | error e =>
    rcases T' h0 with he | ⟨_, _, _, hx, _⟩
    · cases he; exact .inl rfl
    · cases hx
  | ok r =>
    rcases T' h0 with he | ⟨_, new, c', hx, g1, _, _, _, _, _, vs, g2, g3⟩
    · cases he
    · refine .inr ⟨w'.outs, rfl, ?_⟩
      rw [g1, g2]
      simpa using g3

end

end Enum
end PythonDice
