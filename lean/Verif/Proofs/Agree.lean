import Verif.Proofs.Quiet
import Verif.Proofs.World
import Verif.Spec.RunDepth

/-!
# What happens below the maximal depth of functions does not matter
-/

namespace PythonDice

open Spec Compiler

/-- The maximal and the current depth. -/
def At (D c : ℤ) (s : Settings) : Prop := s.maxFuncDepth = D ∧ s.currDepth = c

/-- The maximal depth, and a current depth between one and the maximal depth. -/
def Ranged (D c : ℤ) (s : Settings) : Prop := s.maxFuncDepth = D ∧ c ≤ s.currDepth ∧ s.currDepth ≤ max c D

theorem At.within {D c : ℤ} {s : Settings} (h : At D c s) : Ranged D c s := ⟨h.1, h.2.ge, h.2.le.trans (le_max_left _ _)⟩

/-- At this depth the computations are the same; if they succeed then the depth is as before, and the result is of a kind; if they fail then the
depth is at most the maximal one, or as before. -/
def Agree {α : Type} (D c : ℤ) (R : α → Prop) (m m' : M α) : Prop :=
  ∀ w : World, At D c w.settings → m' w = m w ∧ (∀ a, (m w).1 = .ok a → At D c (m w).2.settings ∧ R a) ∧ Ranged D c (m w).2.settings

/-- Any result. -/
def Any {α : Type} (_ : α) : Prop := True

namespace Agree
variable {α β : Type} {D c : ℤ}

theorem pure {R : α → Prop} {a : α} (h : R a) : Agree D c R (Pure.pure a) (Pure.pure a) :=
  fun _ hw => ⟨rfl, fun b hb => by cases hb; exact ⟨hw, h⟩, hw.within⟩

theorem throw {R : α → Prop} (e : Err) : Agree D c R (M.throw e) (M.throw e) := fun _ hw => ⟨rfl, (fun b hb => by cases hb), hw.within⟩

theorem quiet {m : M α} (h : KeepsSettings m) : Agree D c Any m m :=
  fun w hw => ⟨rfl, fun a _ => ⟨by rw [h w]; exact hw, trivial⟩, by rw [h w]; exact hw.within⟩

theorem bind {R : α → Prop} {Q : β → Prop} {m m' : M α} {f f' : α → M β} (hm : Agree D c R m m') (hf : ∀ a, R a → Agree D c Q (f a) (f' a)) :
    Agree D c Q (m >>= f) (m' >>= f') := by
  intro w hw
  obtain ⟨h1, h2, hin⟩ := hm w hw
  rw [M.bind_apply, M.bind_apply, h1]
  rcases hr : m w with ⟨r, w'⟩
  rw [hr] at h2 hin
  cases r with
  | error e => exact ⟨rfl, (fun a ha => by cases ha), hin⟩
  | ok a =>
    obtain ⟨h3, h4⟩ := h2 a rfl
    exact hf a h4 w' h3

theorem bindQuiet {Q : β → Prop} {m : M α} {f f' : α → M β} (hm : KeepsSettings m) (hf : ∀ a, Agree D c Q (f a) (f' a)) :
    Agree D c Q (m >>= f) (m >>= f') := (quiet hm).bind fun a _ => hf a

theorem mono {R Q : α → Prop} {m m' : M α} (h : Agree D c R m m') (hq : ∀ a, R a → Q a) : Agree D c Q m m' :=
  fun w hw => ⟨(h w hw).1, fun a ha => ⟨((h w hw).2.1 a ha).1, hq a ((h w hw).2.1 a ha).2⟩, (h w hw).2.2⟩

theorem forList {f f' : α → M β} (h : ∀ x, Agree D c Any (f x) (f' x)) (l : List α) : Agree D c Any (M.forList f l) (M.forList f' l) := by
  induction l with
  | nil => exact pure trivial
  | cons x xs ih => exact (h x).bind fun y _ => ih.bind fun ys _ => pure trivial

theorem castCall {f f' : List Obj → M (Option Obj)} (h : ∀ os, Agree D c Any (f os) (f' os)) (args : List (Option Ty × Obj)) :
    Agree D c Any (PythonDice.castCall f args) (PythonDice.castCall f' args) := by
  unfold PythonDice.castCall
  by_cases ha : args.any castAborts = true
  · rw [if_pos ha, if_pos ha]
    exact pure trivial
  · rw [if_neg ha, if_neg ha]
    refine bindQuiet (KeepsSettings.forList (fun a : Option Ty × Obj => KeepsSettings.castSlot a.1 a.2) _) fun slots => ?_
    by_cases hh : slots.any Slot.isHard = true
    · rw [if_pos hh, if_pos hh]
      refine Agree.bind (R := Any) (forList (fun c : List Obj × ℕ => (h c.1).bind fun v _ => pure trivial) _) fun res _ => ?_
      exact bindQuiet (KeepsSettings.ofLimited _) fun r => pure trivial
    · rw [if_neg hh, if_neg hh]
      exact h _

theorem depthCall {m m' : M (Option Obj)} (h : c < D → Agree D (c + 1) Any m m') :
    Agree D c Any (PythonDice.depthCall m) (PythonDice.depthCall m') := by
  intro w hw
  by_cases hd : c < D
  · have hle : ¬ w.settings.maxFuncDepth ≤ w.settings.currDepth := by rw [hw.1, hw.2]; omega
    set w1 : World := { w with settings := { w.settings with currDepth := w.settings.currDepth + 1 } } with hw1
    have e : ∀ m : M (Option Obj), PythonDice.depthCall m w = (m >>= fun res => do
        M.modify fun w => { w with settings := { w.settings with currDepth := w.settings.currDepth - 1 } }
        Pure.pure (res.getD (.blank false))) w1 := by
      intro m
      unfold PythonDice.depthCall
      show (if w.settings.maxFuncDepth ≤ w.settings.currDepth then _ else _ : M Obj) w = _
      rw [if_neg hle]
      rfl
    rw [e, e]
    have ha : At D (c + 1) w1.settings := ⟨hw.1, by rw [hw1]; dsimp only; rw [hw.2]⟩
    obtain ⟨h1, h2, hin⟩ := h hd w1 ha
    rw [M.bind_apply, M.bind_apply, h1]
    rcases hr : m w1 with ⟨r, w'⟩
    rw [hr] at h2 hin
    cases r with
    | error e =>
      have k : Ranged D c w'.settings := by
        refine ⟨hin.1, ?_, ?_⟩
        · have : c + 1 ≤ w'.settings.currDepth := hin.2.1
          omega
        · have : w'.settings.currDepth ≤ max (c + 1) D := hin.2.2
          omega
      exact ⟨rfl, (fun a ha => by cases ha), k⟩
    | ok a =>
      obtain ⟨h3, -⟩ := h2 a rfl
      have hat : At D c { w'.settings with currDepth := w'.settings.currDepth - 1 } := by
        refine ⟨h3.1, ?_⟩
        show w'.settings.currDepth - 1 = c
        have h4 : w'.settings.currDepth = c + 1 := h3.2
        rw [h4]
        omega
      exact ⟨rfl, fun b _ => ⟨hat, trivial⟩, hat.within⟩
  · have hle : w.settings.maxFuncDepth ≤ w.settings.currDepth := by rw [hw.1, hw.2]; omega
    have e : ∀ m : M (Option Obj), PythonDice.depthCall m w = (do
        if w.settings.currDepthWarningPrinted then Pure.pure ()
        else M.modify fun w => { w with
          depthMsgs := w.depthMsgs + 1
          settings := { w.settings with currDepthWarningPrinted := true } }
        Pure.pure (Obj.blank false) : M Obj) w := by
      intro m
      unfold PythonDice.depthCall
      show (if w.settings.maxFuncDepth ≤ w.settings.currDepth then _ else _ : M Obj) w = _
      rw [if_pos hle]
    rw [e, e]
    refine ⟨rfl, fun a _ => ⟨?_, trivial⟩, ?_⟩
    · cases w.settings.currDepthWarningPrinted <;> exact hw
    · cases w.settings.currDepthWarningPrinted <;> exact hw.within

theorem fnCall {f f' : List Obj → M (Option Obj)} (h : c < D → ∀ os, Agree D (c + 1) Any (f os) (f' os)) (args : List (Option Ty × Obj)) :
    Agree D c Any (PythonDice.fnCall f args) (PythonDice.fnCall f' args) := depthCall fun hd => castCall (h hd) args

end Agree

/-! ## Programs -/

/-- Functions do not set the maximal depth. -/
def FnKeeps : Fn → Prop
  | .lib g => ∀ os, KeepsSettings (g os)
  | .user _ body => keepsB body = true

/-- The same of all functions. -/
def FnsKeep (fns : Fns) : Prop := ∀ p ∈ fns, FnKeeps p.2

theorem lookup_mem {fns : Fns} {s : Sig} {f : Fn} (h : fns.lookup s = some f) : ∃ p ∈ fns, p.2 = f := by
  induction fns with
  | nil => cases h
  | cons a l ih =>
    obtain ⟨t, g⟩ := a
    rw [List.lookup_cons] at h
    cases hb : s == t with
    | true =>
      rw [hb] at h
      cases h
      exact ⟨_, List.mem_cons_self .., rfl⟩
    | false =>
      rw [hb] at h
      obtain ⟨p, hp, he⟩ := ih h
      exact ⟨p, List.mem_cons_of_mem _ hp, he⟩

/-- Calls are the same. -/
def CallAgree (D c : ℤ) (call call' : RunCall) : Prop :=
  ∀ fr fns d body args, FnsKeep fns → keepsB body = true → Agree D c Any (call fr fns d body args) (call' fr fns d body args)

namespace KeepsSettings

theorem runBin (ints : Bool) (op : Compiler.BinOp) (a b : Obj) : KeepsSettings (Spec.runBin ints op a b) := by
  unfold Spec.runBin
  split <;> first
    | exact binop _ _ _
    | (cases ints <;> first | exact matmul _ _ | exact myMatmul _ _ | exact myAnd _ _ | exact myOr _ _ | exact binop _ _ _)

theorem runUnary (ints : Bool) (op : UnOp) (a : Obj) : KeepsSettings (Spec.runUnary ints op a) := by
  cases op with
  | plus => exact posOp _
  | minus => exact negOp _
  | not_ =>
    cases ints
    · exact invertOp _
    · exact myInvert _

theorem runLen (ints : Bool) (a : Obj) : KeepsSettings (Spec.runLen ints a) := by
  cases ints
  · exact lenOp _
  · exact pure _

theorem getVar (R : Rules) (fr : Frame) (x : List Char) : KeepsSettings (Spec.getVar R fr x) := by
  unfold Spec.getVar
  split
  · exact pure _
  · exact throw _

theorem textOf (R : Rules) (fr : Frame) (ps : List StrPart) : KeepsSettings (Spec.textOf R fr ps) := by
  induction ps with
  | nil => exact pure _
  | cons p ps ih =>
    cases p with
    | text s => exact ih.bind fun _ => pure _
    | var x => exact (getVar _ _ _).bind fun _ => ih.bind fun _ => pure _

theorem getFn (fns : Fns) (s : Sig) : KeepsSettings (Spec.getFn fns s) := by
  unfold Spec.getFn
  split
  · exact pure _
  · exact throw _

end KeepsSettings

section
variable {R : Rules} {D c : ℤ} {call call' : RunCall}

mutual

theorem agree_E (hc : CallAgree D c call call') {fns : Fns} (hf : FnsKeep fns) (fr : Frame) (e : Expr) :
    Agree D c Any (runE R call fns fr e) (runE R call' fns fr e) := by
  match e with
  | .num n => exact Agree.pure trivial
  | .dec _ _ => exact Agree.throw _
  | .var x => exact Agree.quiet (KeepsSettings.getVar R fr x)
  | .str _ => exact Agree.throw _
  | .group e =>
    rw [runE, runE]
    exact agree_E hc hf fr e
  | .bin op l r =>
    rw [runE, runE]
    exact (agree_E hc hf fr l).bind fun a _ => (agree_E hc hf fr r).bind fun b _ => Agree.quiet (KeepsSettings.runBin _ _ _ _)
  | .ndm l r =>
    rw [runE, runE]
    exact (agree_E hc hf fr l).bind fun a _ => (agree_E hc hf fr r).bind fun b _ => Agree.quiet (KeepsSettings.roll _ _)
  | .dm r =>
    rw [runE, runE]
    exact (agree_E hc hf fr r).bind fun b _ => Agree.quiet (KeepsSettings.roll1 _)
  | .unary op e =>
    rw [runE, runE]
    exact (agree_E hc hf fr e).bind fun b _ => Agree.quiet (KeepsSettings.runUnary _ _ _)
  | .hash e =>
    rw [runE, runE]
    exact (agree_E hc hf fr e).bind fun b _ => Agree.quiet (KeepsSettings.runLen _ _)
  | .seq es =>
    rw [runE, runE]
    exact (agree_L hc hf fr es).bind fun b _ => Agree.pure trivial
  | .call cs =>
    rw [runE, runE]
    have hg : Agree D c (fun f => FnKeeps f) (getFn fns (callSig cs)) (getFn fns (callSig cs)) := by
      unfold getFn
      cases hl : fns.lookup (callSig cs) with
      | none => exact Agree.throw _
      | some f =>
        obtain ⟨p, hp, rfl⟩ := lookup_mem hl
        exact Agree.pure (hf p hp)
    refine hg.bind fun f hfk => (agree_C hc hf fr cs).bind fun args _ => ?_
    cases f with
    | lib g => exact Agree.quiet (hfk args)
    | user d body => exact hc fr fns d body args hf hfk

theorem agree_L (hc : CallAgree D c call call') {fns : Fns} (hf : FnsKeep fns) (fr : Frame) (es : Elems) :
    Agree D c Any (runElems R call fns fr es) (runElems R call' fns fr es) := by
  match es with
  | .nil => exact Agree.pure trivial
  | .expr e es =>
    rw [runElems, runElems]
    exact (agree_E hc hf fr e).bind fun a _ => (agree_L hc hf fr es).bind fun b _ => Agree.pure trivial
  | .range l r es =>
    rw [runElems, runElems]
    exact (agree_E hc hf fr l).bind fun a _ => (agree_E hc hf fr r).bind fun b _ => Agree.bindQuiet (KeepsSettings.myRange _ _) fun s =>
      (agree_L hc hf fr es).bind fun b _ => Agree.pure trivial

theorem agree_C (hc : CallAgree D c call call') {fns : Fns} (hf : FnsKeep fns) (fr : Frame) (cs : CallParts) :
    Agree D c Any (runArgs R call fns fr cs) (runArgs R call' fns fr cs) := by
  match cs with
  | .nil => exact Agree.pure trivial
  | .word w cs =>
    rw [runArgs, runArgs]
    exact agree_C hc hf fr cs
  | .arg e cs =>
    rw [runArgs, runArgs]
    exact (agree_E hc hf fr e).bind fun a _ => (agree_C hc hf fr cs).bind fun b _ => Agree.pure trivial

end

/-- The functions after a statement. -/
def StKeeps (r : State × Option Obj) : Prop := FnsKeep r.1.fns

theorem agree_loop {f f' : State → ℤ → M (State × Option Obj)} (h : ∀ s n, FnsKeep s.fns → Agree D c StKeeps (f s n) (f' s n)) (ns : List ℤ) :
    ∀ s : State, FnsKeep s.fns → Agree D c StKeeps (runLoop f ns s) (runLoop f' ns s) := by
  induction ns with
  | nil => exact fun s hs => Agree.pure hs
  | cons n ns ih =>
    intro s hs
    rw [runLoop, runLoop]
    refine (h s n hs).bind fun r hr => ?_
    obtain ⟨s1, o⟩ := r
    cases o with
    | some v => exact Agree.pure hr
    | none => exact ih s1 hr

theorem setSetting_at {n : List Char} (hn : n ≠ "maximum function depth".toList) (v : PyAny) :
    Agree D c Any (setSetting n v) (setSetting n v) := by
  intro w hw
  suffices h : At D c (setSetting n v w).2.settings from ⟨rfl, fun _ _ => ⟨h, trivial⟩, h.within⟩
  have hst : ∀ v s', storeSetting w.settings n v = some s' → At D c s' := by
    intro v s' h
    unfold storeSetting at h
    have key : ∀ {β : Type} (o : Option β) (g : β → Settings), (∀ b, (g b).maxFuncDepth = w.settings.maxFuncDepth ∧
        (g b).currDepth = w.settings.currDepth) → o.map g = some s' → At D c s' := by
      intro β o g hg ho
      cases o with
      | none => cases ho
      | some b =>
        cases ho
        exact ⟨(hg b).1.trans hw.1, (hg b).2.trans hw.2⟩
    rw [if_neg hn] at h
    by_cases h1 : n = "position order".toList
    · rw [if_pos h1] at h
      refine key _ _ ?_ h
      exact fun _ => ⟨rfl, rfl⟩
    rw [if_neg h1] at h
    by_cases h2 : n = "explode depth".toList
    · rw [if_pos h2] at h
      refine key _ _ ?_ h
      exact fun _ => ⟨rfl, rfl⟩
    rw [if_neg h2] at h
    by_cases h3 : n = "RV_TRUNC".toList
    · rw [if_pos h3] at h
      refine key _ _ ?_ h
      exact fun _ => ⟨rfl, rfl⟩
    rw [if_neg h3] at h
    by_cases h4 : n = "RV_IGNORE_ZERO_PROBS".toList
    · rw [if_pos h4] at h
      refine key _ _ ?_ h
      exact fun _ => ⟨rfl, rfl⟩
    rw [if_neg h4] at h
    by_cases h5 : n = "DEFAULT_OUTPUT_WIDTH".toList
    · rw [if_pos h5] at h
      refine key _ _ ?_ h
      exact fun _ => ⟨rfl, rfl⟩
    rw [if_neg h5] at h
    cases h
  unfold setSetting
  cases hv : checkedValue (String.ofList n) v with
  | error e => exact hw
  | ok v' =>
    dsimp only
    cases hs : storeSetting w.settings n v' with
    | none => exact hw
    | some s' => exact hst v' s' hs

theorem plainText_inl' (x : List Char) : plainText (x.map Sum.inl ++ []) = some x := by
  induction x with
  | nil => rfl
  | cons c x ih => rw [List.map_cons, List.cons_append, plainText, ih]; rfl

theorem agree_set (hc : CallAgree D c call call') {s : State} (hf : FnsKeep s.fns) {n : List StrPart} (hn : keepsName n = true) (v : Expr) :
    Agree D c Any (runSet R call s n v) (runSet R call' s n v) := by
  obtain ⟨t, rfl, ht⟩ : ∃ t, n = [.text t] ∧ t ≠ "maximum function depth".toList := by
    unfold keepsName at hn
    split at hn
    · exact ⟨_, rfl, of_decide_eq_true hn⟩
    · cases hn
  have e : textOf R s.fr [.text t] = pure (t.map Sum.inl ++ []) := rfl
  have key : ∀ e : Expr, Agree D c Any (textOf R s.fr [.text t] >>= fun n => runE R call s.fns s.fr e >>= fun o => settingsSetObj n o)
      (textOf R s.fr [.text t] >>= fun n => runE R call' s.fns s.fr e >>= fun o => settingsSetObj n o) := by
    intro x
    rw [e, pure_bind, pure_bind]
    refine (agree_E hc hf s.fr x).bind fun o _ => ?_
    unfold settingsSetObj
    rw [plainText_inl', Option.bind_some]
    cases settingArg t o with
    | none => exact Agree.throw _
    | some a => exact setSetting_at ht a
  cases v with
  | str ps =>
    rw [runSet, runSet, e, pure_bind]
    refine Agree.bindQuiet (KeepsSettings.textOf _ _ _) fun u => ?_
    unfold settingsSetStr
    rw [plainText_inl', Option.bind_some]
    cases plainText u with
    | none => exact Agree.throw _
    | some a => exact setSetting_at ht _
  | _ => exact key _

mutual

theorem agree_S (hc : CallAgree D c call call') (st : Stmt) (hk : keepsS st = true) (s : State) (hf : FnsKeep s.fns) :
    Agree D c StKeeps (runS R call st s) (runS R call' st s) := by
  match st with
  | .output e =>
    rw [runS, runS]
    exact (agree_E hc hf _ e).bind fun o _ => Agree.bindQuiet (KeepsSettings.emitOutput _ _) fun _ => Agree.pure hf
  | .outputNamed e n =>
    rw [runS, runS]
    exact (agree_E hc hf _ e).bind fun o _ => Agree.bindQuiet (KeepsSettings.textOf _ _ _) fun _ => Agree.bindQuiet (KeepsSettings.emitOutput _ _) fun _ =>
      Agree.pure hf
  | .set n v =>
    rw [runS, runS]
    rw [keepsS] at hk
    exact (agree_set hc hf hk v).bind fun _ _ => Agree.pure hf
  | .function d body =>
    rw [runS, runS]
    rw [keepsS] at hk
    refine Agree.pure fun p hp => ?_
    rcases List.mem_cons.1 hp with rfl | hp
    · exact hk
    · exact hf p hp
  | .result e =>
    rw [runS, runS]
    exact (agree_E hc hf _ e).bind fun o _ => Agree.pure hf
  | .cond x b r =>
    rw [keepsS, Bool.and_eq_true] at hk
    rw [runS, runS]
    refine (agree_E hc hf _ x).bind fun o _ => Agree.bindQuiet (KeepsSettings.truthOp _) fun t => ?_
    cases t with
    | true => exact agree_B hc b hk.1 s hf
    | false => exact agree_Else hc r hk.2 s hf
  | .loop x e b =>
    rw [keepsS] at hk
    rw [runS, runS]
    exact (agree_E hc hf _ e).bind fun o _ => Agree.bindQuiet (KeepsSettings.iterOp _) fun ns =>
      agree_loop (fun s' n hs' => agree_B hc b hk { s' with fr := s'.fr.set x (.num n) } hs') ns s hf
  | .assign x e =>
    rw [runS, runS]
    exact (agree_E hc hf _ e).bind fun o _ => Agree.pure hf

theorem agree_B (hc : CallAgree D c call call') (b : Block) (hk : keepsB b = true) (s : State) (hf : FnsKeep s.fns) :
    Agree D c StKeeps (runB R call b s) (runB R call' b s) := by
  match b with
  | .nil =>
    rw [runB, runB]
    exact Agree.pure hf
  | .cons st b =>
    rw [keepsB, Bool.and_eq_true] at hk
    rw [runB, runB]
    refine (agree_S hc st hk.1 s hf).bind fun r hr => ?_
    obtain ⟨s1, o⟩ := r
    cases o with
    | some v => exact Agree.pure hr
    | none => exact agree_B hc b hk.2 s1 hr

theorem agree_Else (hc : CallAgree D c call call') (r : Else) (hk : keepsE r = true) (s : State) (hf : FnsKeep s.fns) :
    Agree D c StKeeps (runElse R call r s) (runElse R call' r s) := by
  match r with
  | .done =>
    rw [runElse, runElse]
    exact Agree.pure hf
  | .else_ b =>
    rw [keepsE] at hk
    rw [runElse, runElse]
    exact agree_B hc b hk s hf
  | .elif x b r =>
    rw [keepsE, Bool.and_eq_true] at hk
    rw [runElse, runElse]
    refine (agree_E hc hf _ x).bind fun o _ => Agree.bindQuiet (KeepsSettings.truthOp _) fun t => ?_
    cases t with
    | true => exact agree_B hc b hk.1 s hf
    | false => exact agree_Else hc r hk.2 s hf

end

/-- Below the maximal depth nothing is called. -/
theorem callFrom_agree (base base' : RunCall) (n : ℕ) : ∀ c : ℤ, D - c < n →
    0 < n → CallAgree D c (runCallFrom R base n) (runCallFrom R base' n) := by
  induction n with
  | zero => intro c _ h; cases h
  | succ n ih =>
    intro c hn _ fr fns d body args hf hk
    rw [runCallFrom, runCallFrom]
    refine Agree.fnCall (fun hd os => ?_) _
    have hn' : D - (c + 1) < n := by push_cast at hn; omega
    have h0 : 0 < n := by
      rcases Nat.eq_zero_or_pos n with rfl | h
      · push_cast at hn
        omega
      · exact h
    exact (agree_B (ih (c + 1) hn' h0) body hk _ hf).bind fun r _ => Agree.pure trivial

/-- With any number of nested calls the depth is kept. -/
theorem runCall_within (n : ℕ) : ∀ c : ℤ, CallAgree D c (runCall R n) (runCall R n) := by
  induction n with
  | zero =>
    intro c fr fns d body args hf hk
    exact Agree.throw _
  | succ n ih =>
    intro c fr fns d body args hf hk
    rw [runCall]
    exact Agree.fnCall (fun _ os => (agree_B (ih (c + 1)) body hk _ hf).bind fun r _ => Agree.pure trivial) _

end

theorem libraryFns_keep (R : Rules) : FnsKeep (if R.lib then libraryFns else []) := by
  cases R.lib with
  | false => exact fun p hp => by cases hp
  | true =>
    have one : ∀ g : Obj → M Obj, (∀ a, KeepsSettings (g a)) → FnKeeps (fn1 g) := by
      intro g hg os
      rcases os with _ | ⟨a, _ | ⟨b, os⟩⟩
      · exact KeepsSettings.throw _
      · exact hg a
      · exact KeepsSettings.throw _
    have two : ∀ g : Obj → Obj → M Obj, (∀ a b, KeepsSettings (g a b)) → FnKeeps (fn2 g) := by
      intro g hg os
      rcases os with _ | ⟨a, _ | ⟨b, _ | ⟨c, os⟩⟩⟩
      · exact KeepsSettings.throw _
      · exact KeepsSettings.throw _
      · exact hg a b
      · exact KeepsSettings.throw _
    intro p hp
    rw [if_pos rfl] at hp
    unfold libraryFns at hp
    simp only [List.mem_cons, List.not_mem_nil, or_false] at hp
    rcases hp with rfl | rfl | rfl | rfl | rfl | rfl | rfl | rfl | rfl | rfl | rfl | rfl | rfl
    · exact one _ KeepsSettings.absolute
    · exact two _ KeepsSettings.contains
    · exact two _ KeepsSettings.countIn
    · exact one _ fun d => KeepsSettings.explode d
    · exact two _ KeepsSettings.highestN
    · exact two _ KeepsSettings.lowestN
    · exact two _ KeepsSettings.middleN
    · exact two _ KeepsSettings.highestOf
    · exact two _ KeepsSettings.lowestOf
    · exact one _ KeepsSettings.maximumOf
    · exact one _ KeepsSettings.reverse
    · exact one _ KeepsSettings.sort
    · exact two _ KeepsSettings.trueDiv

/-- A program does not reach below the maximal depth, and leaves the depth as it was if it succeeds. -/
theorem runWith_agree (R : Rules) (base base' : RunCall) {n : ℕ} {D c : ℤ} (hn : D - c < n) (h0 : 0 < n) {b : Block} (hk : keepsB b = true) :
    Agree D c Any (runWith R (runCallFrom R base n) b) (runWith R (runCallFrom R base' n) b) := by
  unfold runWith
  refine Agree.bindQuiet (KeepsSettings.modify fun _ => rfl) fun _ => ?_
  exact (agree_B (callFrom_agree base base' n c hn h0) b hk _ (libraryFns_keep R)).bind fun _ _ =>
    Agree.bindQuiet (m := M.get) (fun _ => rfl) fun _ => Agree.pure trivial

/-- However a program ends, the depth is within what it was and the maximal one. -/
theorem run_within (R : Rules) (n : ℕ) (D c : ℤ) {b : Block} (hk : keepsB b = true) : Agree D c Any (run R n b) (run R n b) := by
  unfold run
  refine Agree.bindQuiet (KeepsSettings.modify fun _ => rfl) fun _ => ?_
  exact (agree_B (runCall_within n c) b hk _ (libraryFns_keep R)).bind fun _ _ =>
    Agree.bindQuiet (m := M.get) (fun _ => rfl) fun _ => Agree.pure trivial

theorem runCallFrom_add (R : Rules) (base : RunCall) (k n : ℕ) : runCallFrom R base (n + k) = runCallFrom R (runCallFrom R base k) n := by
  induction n with
  | zero => rw [Nat.zero_add]; rfl
  | succ n ih =>
    rw [Nat.succ_add, runCallFrom, runCallFrom, ih]

theorem runCall_eq (R : Rules) (n : ℕ) : runCall R n = runCallFrom R (fun _ _ _ _ _ => M.throw .fuel) n := by
  induction n with
  | zero => rfl
  | succ n ih => rw [runCall, runCallFrom, ih]

theorem run_eq (R : Rules) (n : ℕ) (b : Block) : run R n b = runWith R (runCall R n) b := rfl

end PythonDice
