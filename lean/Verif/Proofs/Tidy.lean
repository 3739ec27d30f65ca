import Verif.Proofs.Replay

/-!
# Programs that set nothing and succeed leave the settings as they were
-/

namespace PythonDice

open Spec Compiler

theorem Alike.trans {a b c : Settings} (h : Alike a b) (g : Alike b c) : Alike a c :=
  ⟨g.zeros.trans h.zeros, g.order.trans h.order, g.explode.trans h.explode, g.depth.trans h.depth, g.now.trans h.now⟩

/-- A computation that leaves the settings as they were if it succeeds. -/
def Tidy {α : Type} (m : M α) : Prop := ∀ w a, (m w).1 = .ok a → Alike w.settings (m w).2.settings

namespace Tidy
variable {α β : Type}

theorem quiet {m : M α} (h : KeepsSettings m) : Tidy m := fun w _ _ => by rw [h w]; exact Alike.refl _

theorem pure (a : α) : Tidy (Pure.pure a : M α) := quiet (KeepsSettings.pure a)

theorem throw (e : Err) : Tidy (M.throw e : M α) := quiet (KeepsSettings.throw e)

theorem bind {m : M α} {f : α → M β} (hm : Tidy m) (hf : ∀ a, Tidy (f a)) : Tidy (m >>= f) := by
  intro w b hb
  rw [M.bind_apply] at hb ⊢
  have h := hm w
  rcases hr : m w with ⟨r, w'⟩
  rw [hr] at hb h
  cases r with
  | error e => cases hb
  | ok a => exact (h a rfl).trans (hf a w' b hb)

theorem forList {f : α → M β} (hf : ∀ x, Tidy (f x)) (l : List α) : Tidy (M.forList f l) := by
  induction l with
  | nil => exact pure []
  | cons x xs ih => exact (hf x).bind fun y => ih.bind fun ys => pure _

theorem castCall {f : List Obj → M (Option Obj)} (hf : ∀ l, Tidy (f l)) (args : List (Option Ty × Obj)) :
    Tidy (PythonDice.castCall f args) := by
  unfold PythonDice.castCall
  split
  · exact pure _
  · refine (quiet (KeepsSettings.forList (fun a : Option Ty × Obj => KeepsSettings.castSlot a.1 a.2) args)).bind fun slots => ?_
    split
    · exact (forList (fun c : List Obj × ℕ => (hf c.1).bind fun v => pure _) _).bind fun res =>
        (quiet (KeepsSettings.ofLimited _)).bind fun r => pure _
    · exact hf _

theorem fnCall {f : List Obj → M (Option Obj)} (hf : ∀ l, Tidy (f l)) (args : List (Option Ty × Obj)) :
    Tidy (PythonDice.fnCall f args) := by
  unfold PythonDice.fnCall PythonDice.depthCall
  intro w b hb
  by_cases hd : w.settings.maxFuncDepth ≤ w.settings.currDepth
  · have e : (ite (w.settings.maxFuncDepth ≤ w.settings.currDepth) (do
        if w.settings.currDepthWarningPrinted then Pure.pure ()
        else M.modify fun w => { w with
          depthMsgs := w.depthMsgs + 1
          settings := { w.settings with currDepthWarningPrinted := true } }
        Pure.pure (Obj.blank false) : M Obj) (do
        M.modify fun w => { w with settings := { w.settings with currDepth := w.settings.currDepth + 1 } }
        let res ← PythonDice.castCall f args
        M.modify fun w => { w with settings := { w.settings with currDepth := w.settings.currDepth - 1 } }
        Pure.pure (res.getD (.blank false)) : M Obj)) = _ := if_pos hd
    change Alike w.settings ((ite (w.settings.maxFuncDepth ≤ w.settings.currDepth) _ _ : M Obj) w).2.settings
    rw [e]
    cases w.settings.currDepthWarningPrinted <;> exact ⟨rfl, rfl, rfl, rfl, rfl⟩
  · have e : (ite (w.settings.maxFuncDepth ≤ w.settings.currDepth) (do
        if w.settings.currDepthWarningPrinted then Pure.pure ()
        else M.modify fun w => { w with
          depthMsgs := w.depthMsgs + 1
          settings := { w.settings with currDepthWarningPrinted := true } }
        Pure.pure (Obj.blank false) : M Obj) (do
        M.modify fun w => { w with settings := { w.settings with currDepth := w.settings.currDepth + 1 } }
        let res ← PythonDice.castCall f args
        M.modify fun w => { w with settings := { w.settings with currDepth := w.settings.currDepth - 1 } }
        Pure.pure (res.getD (.blank false)) : M Obj)) = _ := if_neg hd
    change ((ite (w.settings.maxFuncDepth ≤ w.settings.currDepth) _ _ : M Obj) w).1 = _ at hb
    change Alike w.settings ((ite (w.settings.maxFuncDepth ≤ w.settings.currDepth) _ _ : M Obj) w).2.settings
    rw [e] at hb ⊢
    set w1 : World := { w with settings := { w.settings with currDepth := w.settings.currDepth + 1 } } with hw1
    change ((PythonDice.castCall f args >>= fun res => do
        M.modify fun w => { w with settings := { w.settings with currDepth := w.settings.currDepth - 1 } }
        Pure.pure (res.getD (.blank false)) : M Obj) w1).1 = _ at hb
    change Alike w.settings ((PythonDice.castCall f args >>= fun res => do
        M.modify fun w => { w with settings := { w.settings with currDepth := w.settings.currDepth - 1 } }
        Pure.pure (res.getD (.blank false)) : M Obj) w1).2.settings
    rw [M.bind_apply] at hb ⊢
    have h := castCall hf args w1
    rcases hr : PythonDice.castCall f args w1 with ⟨r, w'⟩
    rw [hr] at hb h
    cases r with
    | error e => cases hb
    | ok a =>
      obtain ⟨g1, g2, g3, g4, g5⟩ := h a rfl
      refine ⟨g1, g2, g3, g4, ?_⟩
      change w'.settings.currDepth - 1 = _
      change w'.settings.currDepth = w.settings.currDepth + 1 at g5
      rw [g5]
      omega

end Tidy

/-- A computation that leaves the settings as they were if it succeeds, with a result of a kind. -/
def TidyTo {α : Type} (Q : α → Prop) (m : M α) : Prop := Tidy m ∧ ∀ w a, (m w).1 = .ok a → Q a

namespace TidyTo
variable {α β : Type}

theorem pure {Q : α → Prop} {a : α} (h : Q a) : TidyTo Q (Pure.pure a) := ⟨Tidy.pure a, fun _ b hb => by cases hb; exact h⟩

theorem bindTo {P : α → Prop} {Q : β → Prop} {m : M α} {f : α → M β} (hm : TidyTo P m) (hf : ∀ a, P a → TidyTo Q (f a)) :
    TidyTo Q (m >>= f) := by
  have key : ∀ w b, ((m >>= f) w).1 = .ok b → Alike w.settings ((m >>= f) w).2.settings ∧ Q b := by
    intro w b hb
    rw [M.bind_apply] at hb ⊢
    have h := hm.1 w
    have h3 := hm.2 w
    rcases hr : m w with ⟨r, w'⟩
    rw [hr] at hb h h3
    cases r with
    | error e => cases hb
    | ok a => exact ⟨(h a rfl).trans ((hf a (h3 a rfl)).1 w' b hb), (hf a (h3 a rfl)).2 w' b hb⟩
  exact ⟨fun w b hb => (key w b hb).1, fun w b hb => (key w b hb).2⟩

theorem bind {Q : β → Prop} {m : M α} {f : α → M β} (hm : Tidy m) (hf : ∀ a, TidyTo Q (f a)) : TidyTo Q (m >>= f) :=
  bindTo (P := Any) ⟨hm, fun _ _ _ => trivial⟩ fun a _ => hf a

end TidyTo

/-- Functions of the library keep the settings, functions of the program set nothing. -/
def FnTidy : Fn → Prop
  | .lib g => ∀ os, KeepsSettings (g os)
  | .user _ body => SetsNothing body

/-- The same of all functions. -/
def FnsTidy (fns : Fns) : Prop := ∀ p ∈ fns, FnTidy p.2

/-- The same of calls. -/
def CallTidy (call : RunCall) : Prop := ∀ fr fns d body args, FnsTidy fns → SetsNothing body → Tidy (call fr fns d body args)

/-- The functions after a statement. -/
def StTidy (r : State × Option Obj) : Prop := FnsTidy r.1.fns

section
variable {R : Rules} {call : RunCall}

mutual

theorem tidy_E (hc : CallTidy call) {fns : Fns} (hf : FnsTidy fns) (fr : Frame) (e : Expr) : Tidy (runE R call fns fr e) := by
  match e with
  | .num n => exact Tidy.pure _
  | .dec _ _ => exact Tidy.throw _
  | .var x => exact Tidy.quiet (KeepsSettings.getVar R fr x)
  | .str _ => exact Tidy.throw _
  | .group e =>
    rw [runE]
    exact tidy_E hc hf fr e
  | .bin op l r =>
    rw [runE]
    exact (tidy_E hc hf fr l).bind fun a => (tidy_E hc hf fr r).bind fun b => Tidy.quiet (KeepsSettings.runBin _ _ _ _)
  | .ndm l r =>
    rw [runE]
    exact (tidy_E hc hf fr l).bind fun a => (tidy_E hc hf fr r).bind fun b => Tidy.quiet (KeepsSettings.roll _ _)
  | .dm r =>
    rw [runE]
    exact (tidy_E hc hf fr r).bind fun b => Tidy.quiet (KeepsSettings.roll1 _)
  | .unary op e =>
    rw [runE]
    exact (tidy_E hc hf fr e).bind fun b => Tidy.quiet (KeepsSettings.runUnary _ _ _)
  | .hash e =>
    rw [runE]
    exact (tidy_E hc hf fr e).bind fun b => Tidy.quiet (KeepsSettings.runLen _ _)
  | .seq es =>
    rw [runE]
    exact (tidy_L hc hf fr es).bind fun b => Tidy.pure _
  | .call cs =>
    rw [runE]
    have hg : TidyTo FnTidy (getFn fns (callSig cs)) := by
      unfold getFn
      cases hl : fns.lookup (callSig cs) with
      | none => exact ⟨Tidy.throw _, fun _ _ h => by cases h⟩
      | some f =>
        obtain ⟨p, hp, rfl⟩ := lookup_mem hl
        exact TidyTo.pure (hf p hp)
    refine (hg.bindTo (Q := Any) fun f hfk => ⟨(tidy_C hc hf fr cs).bind fun args => ?_, fun _ _ _ => trivial⟩).1
    cases f with
    | lib g => exact Tidy.quiet (hfk args)
    | user d body => exact hc fr fns d body args hf hfk

theorem tidy_L (hc : CallTidy call) {fns : Fns} (hf : FnsTidy fns) (fr : Frame) (es : Elems) : Tidy (runElems R call fns fr es) := by
  match es with
  | .nil => exact Tidy.pure _
  | .expr e es =>
    rw [runElems]
    exact (tidy_E hc hf fr e).bind fun a => (tidy_L hc hf fr es).bind fun b => Tidy.pure _
  | .range l r es =>
    rw [runElems]
    exact (tidy_E hc hf fr l).bind fun a => (tidy_E hc hf fr r).bind fun b => (Tidy.quiet (KeepsSettings.myRange _ _)).bind fun s =>
      (tidy_L hc hf fr es).bind fun b => Tidy.pure _

theorem tidy_C (hc : CallTidy call) {fns : Fns} (hf : FnsTidy fns) (fr : Frame) (cs : CallParts) :
    Tidy (runArgs R call fns fr cs) := by
  match cs with
  | .nil => exact Tidy.pure _
  | .word w cs =>
    rw [runArgs]
    exact tidy_C hc hf fr cs
  | .arg e cs =>
    rw [runArgs]
    exact (tidy_E hc hf fr e).bind fun a => (tidy_C hc hf fr cs).bind fun b => Tidy.pure _

end

theorem tidy_loop {f : State → ℤ → M (State × Option Obj)} (h : ∀ s n, FnsTidy s.fns → TidyTo StTidy (f s n)) (ns : List ℤ) :
    ∀ s : State, FnsTidy s.fns → TidyTo StTidy (runLoop f ns s) := by
  induction ns with
  | nil => exact fun s hs => TidyTo.pure hs
  | cons n ns ih =>
    intro s hs
    rw [runLoop]
    refine (h s n hs).bindTo fun r hr => ?_
    obtain ⟨s1, o⟩ := r
    cases o with
    | some v => exact TidyTo.pure hr
    | none => exact ih s1 hr

mutual

theorem tidy_S (hc : CallTidy call) (st : Stmt) (hk : setsOnlyS (fun _ => false) st = true) (s : State) (hf : FnsTidy s.fns) :
    TidyTo StTidy (runS R call st s) := by
  match st with
  | .output e =>
    rw [runS]
    exact TidyTo.bind (tidy_E hc hf _ e) fun o => TidyTo.bind (Tidy.quiet (KeepsSettings.emitOutput _ _)) fun _ => TidyTo.pure hf
  | .outputNamed e n =>
    rw [runS]
    exact TidyTo.bind (tidy_E hc hf _ e) fun o => TidyTo.bind (Tidy.quiet (KeepsSettings.textOf _ _ _)) fun _ =>
      TidyTo.bind (Tidy.quiet (KeepsSettings.emitOutput _ _)) fun _ => TidyTo.pure hf
  | .set n v =>
    rw [setsOnlyS] at hk
    cases hk
  | .function d body =>
    rw [runS]
    refine TidyTo.pure fun p hp => ?_
    rcases List.mem_cons.1 hp with rfl | hp
    · rw [setsOnlyS] at hk
      exact hk
    · exact hf p hp
  | .result e =>
    rw [runS]
    exact TidyTo.bind (tidy_E hc hf _ e) fun o => TidyTo.pure hf
  | .cond x b r =>
    rw [runS]
    rw [setsOnlyS, Bool.and_eq_true] at hk
    refine TidyTo.bind (tidy_E hc hf _ x) fun o => TidyTo.bind (Tidy.quiet (KeepsSettings.truthOp _)) fun t => ?_
    cases t with
    | true => exact tidy_B hc b hk.1 s hf
    | false => exact tidy_Else hc r hk.2 s hf
  | .loop x e b =>
    rw [runS]
    rw [setsOnlyS] at hk
    exact TidyTo.bind (tidy_E hc hf _ e) fun o => TidyTo.bind (Tidy.quiet (KeepsSettings.iterOp _)) fun ns =>
      tidy_loop (fun s' n hs' => tidy_B hc b hk { s' with fr := s'.fr.set x (.num n) } hs') ns s hf
  | .assign x e =>
    rw [runS]
    exact TidyTo.bind (tidy_E hc hf _ e) fun o => TidyTo.pure hf

theorem tidy_B (hc : CallTidy call) (b : Block) (hk : setsOnlyB (fun _ => false) b = true) (s : State) (hf : FnsTidy s.fns) :
    TidyTo StTidy (runB R call b s) := by
  match b with
  | .nil =>
    rw [runB]
    exact TidyTo.pure hf
  | .cons st b =>
    rw [runB]
    rw [setsOnlyB, Bool.and_eq_true] at hk
    refine (tidy_S hc st hk.1 s hf).bindTo fun r hr => ?_
    obtain ⟨s1, o⟩ := r
    cases o with
    | some v => exact TidyTo.pure hr
    | none => exact tidy_B hc b hk.2 s1 hr

theorem tidy_Else (hc : CallTidy call) (r : Else) (hk : setsOnlyE (fun _ => false) r = true) (s : State) (hf : FnsTidy s.fns) :
    TidyTo StTidy (runElse R call r s) := by
  match r with
  | .done =>
    rw [runElse]
    exact TidyTo.pure hf
  | .else_ b =>
    rw [runElse]
    rw [setsOnlyE] at hk
    exact tidy_B hc b hk s hf
  | .elif x b r =>
    rw [runElse]
    rw [setsOnlyE, Bool.and_eq_true] at hk
    refine TidyTo.bind (tidy_E hc hf _ x) fun o => TidyTo.bind (Tidy.quiet (KeepsSettings.truthOp _)) fun t => ?_
    cases t with
    | true => exact tidy_B hc b hk.1 s hf
    | false => exact tidy_Else hc r hk.2 s hf

end

theorem tidy_call (n : ℕ) : CallTidy (runCall R n) := by
  induction n with
  | zero => exact fun _ _ _ _ _ _ _ => Tidy.throw _
  | succ n ih =>
    intro fr fns d body args hf hk
    rw [runCall]
    exact Tidy.fnCall (fun os => (tidy_B ih body hk _ hf).1.bind fun r => Tidy.pure _) _

end


theorem libraryFns_tidy (R : Rules) : FnsTidy (if R.lib then libraryFns else []) := by
  intro p hp
  have h := libraryFns_keep R p hp
  have hl : ∃ g, p.2 = .lib g := by
    cases hR : R.lib with
    | false => rw [hR] at hp; cases hp
    | true =>
      rw [hR, if_pos rfl] at hp
      unfold libraryFns at hp
      simp only [List.mem_cons, List.not_mem_nil, or_false] at hp
      rcases hp with rfl | rfl | rfl | rfl | rfl | rfl | rfl | rfl | rfl | rfl | rfl | rfl | rfl <;> exact ⟨_, rfl⟩
  obtain ⟨g, hg⟩ := hl
  rw [hg] at h ⊢
  exact h

/-- A program that sets nothing and succeeds leaves the settings as they were. -/
theorem run_tidy (R : Rules) (n : ℕ) {b : Block} (hb : SetsNothing b) : Tidy (run R n b) := by
  have h : Tidy (runB R (runCall R n) b ⟨if R.lib then libraryFns else [], ⟨none, [], []⟩⟩ >>= fun _ =>
      (M.get >>= fun w => pure w.outs : M (List (Obj × Option PyText)))) :=
    (tidy_B (tidy_call n) b hb _ (libraryFns_tidy R)).1.bind fun _ => Tidy.quiet fun _ => rfl
  exact fun w a ha => h { w with outs := [] } a ha

mutual

theorem setsOnlyS_mono {p q : List StrPart → Bool} (h : ∀ n, p n = true → q n = true) (s : Stmt) (hs : setsOnlyS p s = true) :
    setsOnlyS q s = true := by
  match s with
  | .set n _ => rw [setsOnlyS] at hs ⊢; exact h n hs
  | .function _ b => rw [setsOnlyS] at hs ⊢; exact setsOnlyB_mono h b hs
  | .cond _ b r =>
    rw [setsOnlyS, Bool.and_eq_true] at hs ⊢
    exact ⟨setsOnlyB_mono h b hs.1, setsOnlyE_mono h r hs.2⟩
  | .loop _ _ b => rw [setsOnlyS] at hs ⊢; exact setsOnlyB_mono h b hs
  | .output _ => rfl
  | .outputNamed _ _ => rfl
  | .result _ => rfl
  | .assign _ _ => rfl

theorem setsOnlyB_mono {p q : List StrPart → Bool} (h : ∀ n, p n = true → q n = true) (b : Block) (hs : setsOnlyB p b = true) :
    setsOnlyB q b = true := by
  match b with
  | .nil => rfl
  | .cons s b =>
    rw [setsOnlyB, Bool.and_eq_true] at hs ⊢
    exact ⟨setsOnlyS_mono h s hs.1, setsOnlyB_mono h b hs.2⟩

theorem setsOnlyE_mono {p q : List StrPart → Bool} (h : ∀ n, p n = true → q n = true) (r : Else) (hs : setsOnlyE p r = true) :
    setsOnlyE q r = true := by
  match r with
  | .done => rfl
  | .else_ b => rw [setsOnlyE] at hs ⊢; exact setsOnlyB_mono h b hs
  | .elif _ b r =>
    rw [setsOnlyE, Bool.and_eq_true] at hs ⊢
    exact ⟨setsOnlyB_mono h b hs.1, setsOnlyE_mono h r hs.2⟩

end

theorem _root_.Spec.SetsNothing.leaves {b : Block} (h : SetsNothing b) : LeavesZeros b := setsOnlyB_mono (fun _ h => by cases h) b h

end PythonDice
