import Verif.Proofs.Replace
import Verif.Proofs.Deepless
import Verif.Proofs.NaiveRun
import Verif.Spec.Inline

/-!
# The body of a function in the place of a call
-/

namespace PythonDice

open Spec Compiler

namespace Deepless

theorem runBin (ints : Bool) (op : Compiler.BinOp) (a b : Obj) : Deepless (Spec.runBin ints op a b) := by
  cases op <;> unfold Spec.runBin <;> first
    | exact binop _ _ _
    | split <;> first
      | exact myMatmul _ _
      | exact matmul _ _
      | exact myAnd _ _
      | exact myOr _ _
      | exact binop _ _ _

theorem runUnary (ints : Bool) (op : UnOp) (a : Obj) : Deepless (Spec.runUnary ints op a) := by
  cases op <;> unfold Spec.runUnary
  · exact posOp _
  · exact negOp _
  · split
    · exact myInvert _
    · exact invertOp _

theorem runLen (ints : Bool) (a : Obj) : Deepless (Spec.runLen ints a) := by
  unfold Spec.runLen
  split
  · exact pure _
  · exact lenOp _

theorem getVar (R : Rules) (fr : Frame) (x : List Char) : Deepless (Spec.getVar R fr x) := by
  unfold Spec.getVar
  split
  · exact pure _
  · exact throw _

end Deepless

/-- The functions of the library do not look at the depth. -/
theorem libraryFns_deepless (R : Rules) (p : Sig × Fn) (hp : p ∈ (if R.lib then libraryFns else [])) : ∃ g, p.2 = .lib g ∧ ∀ os, Deepless (g os) := by
  cases hl : R.lib with
  | false => rw [hl, if_neg Bool.false_ne_true] at hp; cases hp
  | true =>
    have one : ∀ g : Obj → M Obj, (∀ a, Deepless (g a)) → ∃ h, fn1 g = .lib h ∧ ∀ os, Deepless (h os) := by
      intro g hg
      refine ⟨_, rfl, fun os => ?_⟩
      rcases os with _ | ⟨a, _ | ⟨b, os⟩⟩
      · exact Deepless.throw _
      · exact hg a
      · exact Deepless.throw _
    have two : ∀ g : Obj → Obj → M Obj, (∀ a b, Deepless (g a b)) → ∃ h, fn2 g = .lib h ∧ ∀ os, Deepless (h os) := by
      intro g hg
      refine ⟨_, rfl, fun os => ?_⟩
      rcases os with _ | ⟨a, _ | ⟨b, _ | ⟨c, os⟩⟩⟩
      · exact Deepless.throw _
      · exact Deepless.throw _
      · exact hg a b
      · exact Deepless.throw _
    rw [hl, if_pos rfl] at hp
    unfold libraryFns at hp
    simp only [List.mem_cons, List.not_mem_nil, or_false] at hp
    rcases hp with rfl | rfl | rfl | rfl | rfl | rfl | rfl | rfl | rfl | rfl | rfl | rfl | rfl
    · exact one _ Deepless.absolute
    · exact two _ Deepless.contains
    · exact two _ Deepless.countIn
    · exact one _ fun d => Deepless.explode d
    · exact two _ Deepless.highestN
    · exact two _ Deepless.lowestN
    · exact two _ Deepless.middleN
    · exact two _ Deepless.highestOf
    · exact two _ Deepless.lowestOf
    · exact one _ Deepless.maximumOf
    · exact one _ Deepless.reverse
    · exact one _ Deepless.sort
    · exact two _ Deepless.trueDiv

/-- The functions that are called are functions of the library, or not there. -/
def CallsLib (fns : Fns) (qs : List Sig) : Prop := ∀ q ∈ qs, ∀ f, fns.lookup q = some f → ∃ g, f = .lib g ∧ ∀ os, Deepless (g os)

theorem CallsLib.left {fns : Fns} {qs ps : List Sig} (h : CallsLib fns (qs ++ ps)) : CallsLib fns qs := fun q hq => h q (List.mem_append_left _ hq)

theorem CallsLib.right {fns : Fns} {qs ps : List Sig} (h : CallsLib fns (qs ++ ps)) : CallsLib fns ps := fun q hq => h q (List.mem_append_right _ hq)

section
variable {R : Rules} {call : RunCall} {fns : Fns}

mutual

theorem deepless_E (fr : Frame) (e : Expr) (h : CallsLib fns (callsE e)) : Deepless (runE R call fns fr e) := by
  match e with
  | .num n => exact Deepless.pure _
  | .dec _ _ => exact Deepless.throw _
  | .var x => exact Deepless.getVar R fr x
  | .str _ => exact Deepless.throw _
  | .group e =>
    rw [runE]
    exact deepless_E fr e (by rwa [callsE] at h)
  | .bin op l r =>
    rw [runE]
    rw [callsE] at h
    exact (deepless_E fr l h.left).bind fun a => (deepless_E fr r h.right).bind fun b => Deepless.runBin _ _ _ _
  | .ndm l r =>
    rw [runE]
    rw [callsE] at h
    exact (deepless_E fr l h.left).bind fun a => (deepless_E fr r h.right).bind fun b => Deepless.roll _ _
  | .dm r =>
    rw [runE]
    exact (deepless_E fr r (by rwa [callsE] at h)).bind fun b => Deepless.roll1 _
  | .unary op a =>
    rw [runE]
    exact (deepless_E fr a (by rwa [callsE] at h)).bind fun b => Deepless.runUnary _ _ _
  | .hash a =>
    rw [runE]
    exact (deepless_E fr a (by rwa [callsE] at h)).bind fun b => Deepless.runLen _ _
  | .seq es =>
    rw [runE]
    exact (deepless_L fr es (by rwa [callsE] at h)).bind fun b => Deepless.pure _
  | .call cs =>
    rw [runE]
    rw [callsE] at h
    unfold getFn
    cases hl : fns.lookup (callSig cs) with
    | none => exact fun w c => rfl
    | some f =>
      obtain ⟨g, rfl, hg⟩ := h _ List.mem_cons_self f hl
      rw [pure_bind]
      exact (deepless_C fr cs fun q hq => h q (List.mem_cons_of_mem _ hq)).bind fun args => hg args

theorem deepless_L (fr : Frame) (es : Elems) (h : CallsLib fns (callsElems es)) : Deepless (runElems R call fns fr es) := by
  match es with
  | .nil => exact Deepless.pure _
  | .expr a es =>
    rw [runElems]
    rw [callsElems] at h
    exact (deepless_E fr a h.left).bind fun a => (deepless_L fr es h.right).bind fun b => Deepless.pure _
  | .range l r es =>
    rw [runElems]
    rw [callsElems] at h
    exact (deepless_E fr l h.left.left).bind fun a => (deepless_E fr r h.left.right).bind fun b => (Deepless.myRange _ _).bind fun s =>
      (deepless_L fr es h.right).bind fun b => Deepless.pure _

theorem deepless_C (fr : Frame) (cs : CallParts) (h : CallsLib fns (callsArgs cs)) : Deepless (runArgs R call fns fr cs) := by
  match cs with
  | .nil => exact Deepless.pure _
  | .word w cs =>
    rw [runArgs]
    exact deepless_C fr cs (by rwa [callsArgs] at h)
  | .arg a cs =>
    rw [runArgs]
    rw [callsArgs] at h
    exact (deepless_E fr a h.left).bind fun a => (deepless_C fr cs h.right).bind fun b => Deepless.pure _

end

end

theorem callSig_inline (l : List (List Char × Expr)) (cs : CallParts) : callSig (inlineArgs l cs) = callSig cs := by
  match cs with
  | .nil => rw [inlineArgs]
  | .word w cs => rw [inlineArgs, callSig, callSig, callSig_inline l cs]
  | .arg a cs => rw [inlineArgs, callSig, callSig, callSig_inline l cs]

section
variable {R : Rules} {n : ℕ} {z : Bool} {A : Settings} {fns : Fns} {fr : Frame}

/-- Under these settings the expression has this value, without output. -/
def Worth (R : Rules) (n : ℕ) (z : Bool) (A : Settings) (fns : Fns) (fr : Frame) (e : Expr) (o : Obj) : Prop :=
  ∀ w, MemoPure z w → Alike A w.settings → (runE R (runCall R n) fns fr e w).1 = .ok o ∧ (runE R (runCall R n) fns fr e w).2.outs = w.outs

/-- The variables of one frame have the values of expressions in another. -/
structure StandsFor (R : Rules) (n : ℕ) (z : Bool) (A : Settings) (fns : Fns) (fr : Frame) (l : List (List Char × Expr)) (fr' : Frame) : Prop where
  tidy : FnsTidy fns
  replay : FnsReplay z fns
  given : ∀ y e, l.lookup y = some e → ∃ o, fr'.find y = some o ∧ Worth R n z A fns fr e o
  other : ∀ y, l.lookup y = none → fr'.find y = fr.find y

theorem Worth.like {e : Expr} {o : Obj} (h : Worth R n z A fns fr e o) (ht : FnsTidy fns) (hr : FnsReplay z fns) {w w' : World} (hw : Like z [] w w')
    (hA : Alike A w.settings) : (runE R (runCall R n) fns fr e w').1 = .ok o ∧ Like z [] w (runE R (runCall R n) fns fr e w').2 := by
  obtain ⟨h1, h2⟩ := h w' hw.right (hA.trans hw.settings)
  refine ⟨h1, hw.settings.trans (tidy_E (tidy_call (R := R) n) ht fr e w' o h1), ?_, hw.left, ?_⟩
  · rw [h2]
    exact hw.outs
  · exact ((replays_E (R := R) (replays_call (R := R) n) hr fr e w' w' [] ⟨Alike.refl _, rfl, hw.right, hw.right⟩).2).left

mutual

theorem sub_E {call : RunCall} {l : List (List Char × Expr)} {fr' : Frame} (h : StandsFor R n z A fns fr l fr') (a : Expr) (hl : CallsLib fns (callsE a)) :
    Matches z A (runE R call fns fr' a) (runE R (runCall R n) fns fr (inlineE l a)) := by
  match a with
  | .num k =>
    rw [inlineE, runE, runE]
    exact Matches.pure _
  | .dec _ _ =>
    rw [inlineE, runE, runE]
    exact Matches.quiet (Replays.throw _) (KeepsSettings.throw _)
  | .var y =>
    rw [inlineE]
    cases hy : l.lookup y with
    | some e =>
      dsimp only
      rw [runE, runE]
      obtain ⟨o, h1, h2⟩ := h.given y e hy
      have hg : getVar R fr' y = pure o := by
        unfold getVar
        rw [h1]
      rw [hg]
      intro w w' hw hA
      obtain ⟨g1, g2⟩ := h2.like h.tidy h.replay hw hA
      exact ⟨g1, g2, fun _ _ => hA⟩
    | none =>
      dsimp only
      rw [runE, runE]
      have hg : getVar R fr' y = getVar R fr y := by
        unfold getVar
        rw [h.other y hy]
      rw [hg]
      exact Matches.quiet (Replays.getVar R fr y) (KeepsSettings.getVar R fr y)
  | .str _ =>
    rw [inlineE, runE, runE]
    exact Matches.quiet (Replays.throw _) (KeepsSettings.throw _)
  | .group a =>
    rw [inlineE, runE, runE]
    exact sub_E h a (by rwa [callsE] at hl)
  | .bin op a b =>
    rw [inlineE, runE, runE]
    rw [callsE] at hl
    exact (sub_E h a hl.left).bind fun a => (sub_E h b hl.right).bind fun b => Matches.quiet (Replays.runBin _ _ _ _) (KeepsSettings.runBin _ _ _ _)
  | .ndm a b =>
    rw [inlineE, runE, runE]
    rw [callsE] at hl
    exact (sub_E h a hl.left).bind fun a => (sub_E h b hl.right).bind fun b => Matches.quiet (Replays.roll _ _) (KeepsSettings.roll _ _)
  | .dm r =>
    rw [inlineE, runE, runE]
    exact (sub_E h r (by rwa [callsE] at hl)).bind fun b => Matches.quiet (Replays.roll1 _) (KeepsSettings.roll1 _)
  | .unary op a =>
    rw [inlineE, runE, runE]
    exact (sub_E h a (by rwa [callsE] at hl)).bind fun b => Matches.quiet (Replays.runUnary _ _ _) (KeepsSettings.runUnary _ _ _)
  | .hash a =>
    rw [inlineE, runE, runE]
    exact (sub_E h a (by rwa [callsE] at hl)).bind fun b => Matches.quiet (Replays.runLen _ _) (KeepsSettings.runLen _ _)
  | .seq es =>
    rw [inlineE, runE, runE]
    exact (sub_L h es (by rwa [callsE] at hl)).bind fun b => Matches.pure _
  | .call cs =>
    rw [inlineE, runE, runE, callSig_inline]
    rw [callsE] at hl
    unfold getFn
    cases hf : fns.lookup (callSig cs) with
    | none => exact fun w w' hw hA => ⟨rfl, hw, fun _ h => by cases h⟩
    | some f =>
      obtain ⟨g, rfl, _⟩ := hl _ List.mem_cons_self f hf
      rw [pure_bind, pure_bind]
      obtain ⟨p, hp, hp2⟩ := lookup_mem hf
      have h1 := h.tidy p hp
      have h2 := h.replay p hp
      rw [hp2] at h1 h2
      exact (sub_C h cs fun q hq => hl q (List.mem_cons_of_mem _ hq)).bind fun args => Matches.quiet (h2 args) (h1 args)

theorem sub_L {call : RunCall} {l : List (List Char × Expr)} {fr' : Frame} (h : StandsFor R n z A fns fr l fr') (es : Elems)
    (hl : CallsLib fns (callsElems es)) : Matches z A (runElems R call fns fr' es) (runElems R (runCall R n) fns fr (inlineElems l es)) := by
  match es with
  | .nil =>
    rw [inlineElems, runElems, runElems]
    exact Matches.pure _
  | .expr a es =>
    rw [inlineElems, runElems, runElems]
    rw [callsElems] at hl
    exact (sub_E h a hl.left).bind fun a => (sub_L h es hl.right).bind fun b => Matches.pure _
  | .range a b es =>
    rw [inlineElems, runElems, runElems]
    rw [callsElems] at hl
    exact (sub_E h a hl.left.left).bind fun a => (sub_E h b hl.left.right).bind fun b =>
      (Matches.quiet (Replays.myRange _ _) (KeepsSettings.myRange _ _)).bind fun s => (sub_L h es hl.right).bind fun b => Matches.pure _

theorem sub_C {call : RunCall} {l : List (List Char × Expr)} {fr' : Frame} (h : StandsFor R n z A fns fr l fr') (cs : CallParts)
    (hl : CallsLib fns (callsArgs cs)) : Matches z A (runArgs R call fns fr' cs) (runArgs R (runCall R n) fns fr (inlineArgs l cs)) := by
  match cs with
  | .nil =>
    rw [inlineArgs, runArgs, runArgs]
    exact Matches.pure _
  | .word w cs =>
    rw [inlineArgs, runArgs, runArgs]
    exact sub_C h cs (by rwa [callsArgs] at hl)
  | .arg a cs =>
    rw [inlineArgs, runArgs, runArgs]
    rw [callsArgs] at hl
    exact (sub_E h a hl.left).bind fun a => (sub_C h cs hl.right).bind fun b => Matches.pure _

end

/-- The values of the arguments. -/
theorem args_worth (ht : FnsTidy fns) (hr : FnsReplay z fns) (cs : CallParts) (os : List Obj) (h : List.Forall₂ (Worth R n z A fns fr) (argsOf cs) os) :
    ∀ w w', Like z [] w w' → Alike A w.settings → (runArgs R (runCall R n) fns fr cs w').1 = .ok os ∧
      Like z [] w (runArgs R (runCall R n) fns fr cs w').2 := by
  match cs with
  | .nil =>
    rw [argsOf] at h
    cases h
    rw [runArgs]
    exact fun w w' hw _ => ⟨rfl, hw⟩
  | .word _ cs =>
    rw [argsOf] at h
    rw [runArgs]
    exact args_worth ht hr cs os h
  | .arg e cs =>
    rw [argsOf] at h
    rcases h with _ | ⟨h1, h2⟩
    rename_i o os
    intro w w' hw hA
    rw [runArgs, M.bind_apply]
    obtain ⟨g1, g2⟩ := h1.like ht hr hw hA
    rcases hx : runE R (runCall R n) fns fr e w' with ⟨x, v⟩
    rw [hx] at g1 g2
    dsimp only at g1 g2
    subst g1
    dsimp only
    rw [M.bind_apply]
    obtain ⟨i1, i2⟩ := args_worth ht hr cs os h2 w v g2 hA
    rcases hy : runArgs R (runCall R n) fns fr cs v with ⟨y, u⟩
    rw [hy] at i1 i2
    dsimp only at i1 i2
    subst i1
    exact ⟨rfl, i2⟩

end

/-- Arguments of the right types are passed on as they are. -/
theorem castCall_fits (f : List Obj → M (Option Obj)) (ts : List (Option Ty)) (os : List Obj) (h : List.Forall₂ (fun t o => fits t o = true) ts os) :
    castCall f (ts.zip os) = f os := by
  have h1 : (ts.zip os).any castAborts = false := by
    induction h with
    | nil => rfl
    | @cons t o ts os h _ ih =>
      rw [List.zip_cons_cons, List.any_cons, ih, Bool.or_false]
      rcases t with _ | (_ | _ | _) <;> cases o <;> first | rfl | cases h
  have h2 : M.forList (fun a : Option Ty × Obj => castSlot a.1 a.2) (ts.zip os) = pure (os.map Slot.easy) := by
    clear h1
    induction h with
    | nil => rfl
    | @cons t o ts os h _ ih =>
      have e : castSlot t o = pure (.easy o) := by
        rcases t with _ | (_ | _ | _) <;> cases o <;> first | rfl | cases h
      rw [List.zip_cons_cons, M.forList, e, pure_bind, ih, pure_bind]
      rfl
  have h3 : (os.map Slot.easy).any Slot.isHard = false := by
    clear h h1 h2
    induction os with
    | nil => rfl
    | cons o os ih => rw [List.map_cons, List.any_cons, ih]; rfl
  have h4 : ((combos (os.map Slot.easy)).headD ([], 1)).1 = os := by
    have : combos (os.map Slot.easy) = [(os, 1)] := by
      clear h h1 h2 h3
      induction os with
      | nil => rfl
      | cons o os ih => rw [List.map_cons, combos, ih]; rfl
    rw [this]
    rfl
  unfold castCall
  rw [if_neg (by rw [h1]; exact Bool.false_ne_true), h2, pure_bind, if_neg (by rw [h3]; exact Bool.false_ne_true), h4]

theorem lookup_zips {P : Expr → Obj → Prop} (xs : List (List Char)) (es : List Expr) (os : List Obj) (h : List.Forall₂ P es os) (hl : xs.length = es.length)
    (y : List Char) : (∀ e, (xs.zip es).lookup y = some e → y ∈ xs ∧ ∃ o, (xs.zip os).lookup y = some o ∧ P e o) ∧
      ((xs.zip es).lookup y = none → y ∉ xs ∧ (xs.zip os).lookup y = none) := by
  induction h generalizing xs with
  | nil =>
    rw [List.length_nil, List.length_eq_zero_iff] at hl
    subst hl
    exact ⟨fun e he => (by cases he), fun _ => ⟨List.not_mem_nil, rfl⟩⟩
  | @cons e o es os h _ ih =>
    rcases xs with _ | ⟨x, xs⟩
    · cases hl
    rw [List.zip_cons_cons, List.zip_cons_cons]
    by_cases hy : y = x
    · subst hy
      rw [lookup_cons_eq, lookup_cons_eq]
      refine ⟨fun e' he => ?_, fun he => by cases he⟩
      cases he
      exact ⟨List.mem_cons_self, o, rfl, h⟩
    · rw [lookup_cons_ne hy, lookup_cons_ne hy]
      obtain ⟨i1, i2⟩ := ih xs (Nat.succ.inj hl)
      refine ⟨fun e' he => ⟨List.mem_cons_of_mem _ (i1 e' he).1, (i1 e' he).2⟩, fun he => ⟨fun hm => ?_, (i2 he).2⟩⟩
      rcases List.mem_cons.1 hm with hm | hm
      · exact hy hm
      · exact (i2 he).1 hm

theorem params_args (d : List DefPart) (cs : CallParts) (h : callSig cs = defSig d) : (paramsOf d).length = (argsOf cs).length := by
  induction d generalizing cs with
  | nil =>
    match cs with
    | .nil => rfl
    | .word _ _ => rw [callSig] at h; cases h
    | .arg _ _ => rw [callSig] at h; cases h
  | cons p d ih =>
    match cs with
    | .nil => rw [callSig] at h; cases h
    | .word w cs =>
      rw [callSig, defSig, List.map_cons] at h
      rcases p with w' | x | ⟨x, t⟩
      · exact ih cs (List.cons.inj h).2
      · exact absurd (List.cons.inj h).1 (by simp)
      · exact absurd (List.cons.inj h).1 (by simp)
    | .arg e cs =>
      rw [callSig, defSig, List.map_cons] at h
      have := (List.cons.inj h)
      rcases p with w' | x | ⟨x, t⟩
      · exact absurd this.1 (by simp)
      · exact congrArg (· + 1) (ih cs this.2)
      · exact congrArg (· + 1) (ih cs this.2)

section
variable {R : Rules} {n : ℕ} {z : Bool} {A : Settings} {fns : Fns} {fr : Frame}

theorem enter_stands {d : List DefPart} {a : Expr} {cs : CallParts} {os : List Obj} (ht : FnsTidy fns) (hr : FnsReplay z fns) (ho : fr.own = none)
    (hs : callSig cs = defSig d) (h : List.Forall₂ (Worth R n z A fns fr) (argsOf cs) os) :
    StandsFor R n z A fns fr (((paramsOf d).map Prod.fst).zip (argsOf cs)) (enter R fr d (.cons (.result a) .nil) os) := by
  have hl := lookup_zips ((paramsOf d).map Prod.fst) _ _ h (by rw [List.length_map]; exact params_args d cs hs)
  have hass : assignsB (.cons (.result a) .nil) = [] := by simp [assignsB, assignsS]
  have hfr : ∀ y, fr.find y = fr.env.lookup y := fun y => by rw [Frame.find, ho]
  refine ⟨ht, hr, fun y e he => ?_, fun y he => ?_⟩
  · obtain ⟨g1, o, g2, g3⟩ := (hl y).1 e he
    refine ⟨o, ?_, g3⟩
    unfold enter
    by_cases hc : R.copy = true
    · rw [if_pos hc, Frame.find]
      dsimp only
      rw [List.lookup_append, g2]
      rfl
    · rw [if_neg hc, Frame.find]
      dsimp only
      rw [if_pos (List.mem_append_left _ g1), g2]
  · obtain ⟨g1, g2⟩ := (hl y).2 he
    rw [hfr]
    unfold enter
    by_cases hc : R.copy = true
    · rw [if_pos hc, Frame.find]
      dsimp only
      rw [List.lookup_append, g2]
      rfl
    · rw [if_neg hc, Frame.find]
      dsimp only
      rw [hass, List.append_nil, if_neg g1, Frame.program, ho]

/-- A call does what its body does, with the arguments for the parameters. -/
theorem call_inlined {d : List DefPart} {a : Expr} {cs : CallParts} {os : List Obj} (ht : FnsTidy fns) (hr : FnsReplay z fns) (ho : fr.own = none)
    (hs : callSig cs = defSig d) (hf : fns.lookup (defSig d) = some (.user d (.cons (.result a) .nil))) (hl : CallsLib fns (callsE a))
    (h : List.Forall₂ (Worth R (n + 1) z A fns fr) (argsOf cs) os)
    (hty : List.Forall₂ (fun t o => fits t o = true) ((paramsOf d).map Prod.snd) os) (hd : A.currDepth < A.maxFuncDepth) {w : World} (hw : MemoPure z w)
    (hA : Alike A w.settings) :
    (runE R (runCall R (n + 1)) fns fr (inlined d a cs) w).1 = (runE R (runCall R (n + 1)) fns fr (.call cs) w).1 ∧
      ∀ o, (runE R (runCall R (n + 1)) fns fr (.call cs) w).1 = .ok o →
        Like z [] (runE R (runCall R (n + 1)) fns fr (.call cs) w).2 (runE R (runCall R (n + 1)) fns fr (inlined d a cs) w).2 := by
  have hww : Like z [] w w := ⟨Alike.refl _, rfl, hw, hw⟩
  obtain ⟨a1, a2⟩ := args_worth ht hr cs os h w w hww hA
  rcases hx : runArgs R (runCall R (n + 1)) fns fr cs w with ⟨x, v⟩
  rw [hx] at a1 a2
  dsimp only at a1 a2
  subst a1
  have hA' : Alike A v.settings := hA.trans a2.settings
  have e1 : runE R (runCall R (n + 1)) fns fr (.call cs) w = runCall R (n + 1) fr fns d (.cons (.result a) .nil) os v := by
    rw [runE, hs]
    unfold getFn
    rw [hf, pure_bind, M.bind_apply, hx]
    rfl
  have e2 : ∀ u, runB R (runCall R n) (.cons (.result a) .nil) ⟨fns, enter R fr d (.cons (.result a) .nil) os⟩ u =
      match runE R (runCall R n) fns (enter R fr d (.cons (.result a) .nil) os) a u with
      | (.error f, u) => (.error f, u)
      | (.ok o, u) => (.ok (⟨fns, enter R fr d (.cons (.result a) .nil) os⟩, some o), u) := by
    intro u
    rw [runB, runS, bind_assoc, M.bind_apply]
    rcases runE R (runCall R n) fns (enter R fr d (.cons (.result a) .nil) os) a u with ⟨f | o, u⟩ <;> rfl
  have hst := deepless_E (R := R) (call := runCall R n) (enter R fr d (.cons (.result a) .nil) os) a hl v (v.settings.currDepth + 1)
  obtain ⟨m1, m2, _⟩ := sub_E (call := runCall R n) (enter_stands (a := a) ht hr ho hs h) a hl v w
    ⟨⟨a2.settings.zeros.symm, a2.settings.order.symm, a2.settings.explode.symm, a2.settings.depth.symm, a2.settings.now.symm⟩, a2.outs.symm, a2.right, a2.left⟩ hA'
  have hcur := hA'.now
  have hmax := hA'.depth
  have hkeep := tidy_E (R := R) (tidy_call (R := R) n) ht (enter R fr d (.cons (.result a) .nil) os) a v
  have e3 : runCall R (n + 1) fr fns d (.cons (.result a) .nil) os v = depthCall (castCall (fun os => do
      let r ← runB R (runCall R n) (.cons (.result a) .nil) ⟨fns, enter R fr d (.cons (.result a) .nil) os⟩
      pure r.2) (((paramsOf d).map Prod.snd).zip os)) v := rfl
  rw [e1, e3, castCall_fits _ _ _ hty, Enum.depthCall_eq, if_neg (by rw [hcur, hmax]; omega), M.bind_apply, e2]
  change _ ∧ _
  unfold World.atDepth at hst
  rw [hst]
  unfold inlined
  rcases hb : runE R (runCall R n) fns (enter R fr d (.cons (.result a) .nil) os) a v with ⟨r, u⟩
  rw [hb] at m1 m2 hkeep
  dsimp only at m1 m2 hkeep
  rw [m1]
  cases r with
  | error f => exact ⟨rfl, fun o h => by cases h⟩
  | ok o =>
    refine ⟨rfl, fun _ _ => ?_⟩
    have g := (hkeep o rfl).now
    refine ⟨⟨m2.settings.zeros, m2.settings.order, m2.settings.explode, m2.settings.depth, ?_⟩, m2.outs, ?_, m2.right⟩
    · rw [m2.settings.now, g]
      change _ = v.settings.currDepth + 1 - 1
      omega
    · exact m2.left

end

/-- A statement first finds the value of its expression. -/
theorem fill_bind {R : Rules} {z : Bool} {call : RunCall} (hc : CallReplays z call) (h : Hole) (c : Block) (e₀ : Expr)
    (hz : LeavesZeros (.cons (h.fill e₀) c)) (s : State) (hf : FnsReplay z s.fns) : ∃ k : Obj → M (State × Option Obj),
      (∀ e, runB R call (.cons (h.fill e) c) s = runE R call s.fns s.fr e >>= k) ∧ ∀ o, Replays z (k o) := by
  unfold LeavesZeros at hz
  rw [setsOnlyB, Bool.and_eq_true] at hz
  obtain ⟨h1, h2⟩ := hz
  have next : ∀ k : Obj → M (State × Option Obj), (∀ e, runS R call (h.fill e) s = runE R call s.fns s.fr e >>= k) →
      (∀ o, ReplaysTo z (StReplays z) (k o)) → ∃ k : Obj → M (State × Option Obj),
      (∀ e, runB R call (.cons (h.fill e) c) s = runE R call s.fns s.fr e >>= k) ∧ ∀ o, Replays z (k o) := by
    intro k hk hr
    refine ⟨fun o => k o >>= fun r =>
      match r.2 with
      | some v => pure (r.1, some v)
      | none => runB R call c r.1, fun e => by rw [runB, hk, bind_assoc]; rfl, fun o => ((hr o).bindTo (Q := StReplays z) fun r hr => ?_).1⟩
    obtain ⟨s1, o⟩ := r
    cases o with
    | some v => exact ReplaysTo.pure hr
    | none => exact replays_B hc c h2 s1 hr
  rcases h with _ | t | x | ⟨b, r⟩ | ⟨x, b⟩
  · exact next (fun o => do
      emitOutput o none
      pure (s, none)) (fun e => by rw [Hole.fill, runS]) fun o => ReplaysTo.bind (Replays.emitOutput _ _) fun _ => ReplaysTo.pure hf
  · exact next (fun o => do
      let t ← textOf R s.fr t
      emitOutput o (some t)
      pure (s, none)) (fun e => by rw [Hole.fill, runS]) fun o =>
        ReplaysTo.bind (Replays.textOf _ _ _) fun _ => ReplaysTo.bind (Replays.emitOutput _ _) fun _ => ReplaysTo.pure hf
  · exact next (fun o => pure ({ s with fr := s.fr.set x o }, none)) (fun e => by rw [Hole.fill, runS]) fun o => ReplaysTo.pure hf
  · rw [Hole.fill, setsOnlyS, Bool.and_eq_true] at h1
    refine next (fun o => do
      let t ← truthOp o
      if t then runB R call b s else runElse R call r s) (fun e => by rw [Hole.fill, runS]) fun o => ReplaysTo.bind (Replays.truthOp _) fun t => ?_
    cases t with
    | true => exact replays_B hc b h1.1 s hf
    | false => exact replays_Else hc r h1.2 s hf
  · rw [Hole.fill, setsOnlyS] at h1
    exact next (fun o => do
      let ns ← iterOp o
      runLoop (fun s n => runB R call b { s with fr := s.fr.set x (.num n) }) ns s) (fun e => by rw [Hole.fill, runS]) fun o =>
        ReplaysTo.bind (Replays.iterOp _) fun ns =>
          replays_loop (fun s' n hs' => replays_B hc b h1 { s' with fr := s'.fr.set x (.num n) } hs') ns s hf

/-- The function that a definition gives is there after what follows, unless it is defined again. -/
theorem defined_after {R : Rules} {n : ℕ} {a₁ a₂ : Block} {d : List DefPart} {body : Block} (h1 : noResultB a₁ = true) (h2 : noResultB a₂ = true)
    (hd : defSig d ∉ definesB a₂) {s₀ s : State} {r : Option Obj} {w v : World}
    (h : runB R (runCall R n) (follow a₁ (.cons (.function d body) a₂)) s₀ w = (.ok (s, r), v)) : s.fns.lookup (defSig d) = some (.user d body) := by
  rw [runB_follow, M.bind_apply] at h
  rcases e1 : runB R (runCall R n) a₁ s₀ w with ⟨f | ⟨s1, r1⟩, v1⟩
  · rw [e1] at h
    cases h
  have hn := (kept_B (R := R) (call := runCall R n) a₁ s₀ h1 w (s1, r1) (by rw [e1])).none
  dsimp only at hn
  subst hn
  rw [e1] at h
  dsimp only at h
  rw [runB, runS, pure_bind] at h
  dsimp only at h
  have hk := kept_B (R := R) (call := runCall R n) a₂ _ h2 v1 (s, r) (by rw [h])
  rw [hk.fns _ hd]
  exact lookup_cons_eq ..

theorem noResultB_parts {b c : Block} (h : noResultB (follow b c) = true) : noResultB b = true ∧ noResultB c = true := by
  match b with
  | .nil => exact ⟨rfl, h⟩
  | .cons s b =>
    rw [follow, noResultB, Bool.and_eq_true] at h
    rw [noResultB, Bool.and_eq_true]
    exact ⟨⟨h.1, (noResultB_parts h.2).1⟩, (noResultB_parts h.2).2⟩

theorem args_values {P : Expr → Obj → Prop} (ps : List (List Char × Option Ty)) (es : List Expr) (hl : ps.length = es.length)
    (h : ∀ p ∈ ps.zip es, ∃ o, fits p.1.2 o = true ∧ P p.2 o) :
    ∃ os, List.Forall₂ P es os ∧ List.Forall₂ (fun t o => fits t o = true) (ps.map Prod.snd) os := by
  induction ps generalizing es with
  | nil =>
    rw [List.length_nil] at hl
    rw [List.length_eq_zero_iff.1 hl.symm]
    exact ⟨[], .nil, .nil⟩
  | cons p ps ih =>
    rcases es with _ | ⟨e, es⟩
    · cases hl
    obtain ⟨os, h1, h2⟩ := ih es (Nat.succ.inj hl) fun q hq => h q (List.mem_cons_of_mem _ hq)
    obtain ⟨o, g1, g2⟩ := h (p, e) List.mem_cons_self
    exact ⟨o :: os, .cons g2 h1, .cons g1 h2⟩

/-- The body in the place of a call, in a program. -/
theorem inline_run {R : Rules} {n : ℕ} {z : Bool} {a₁ a₂ c : Block} {d : List DefPart} {e : Expr} {cs : CallParts} {h : Hole}
    (hra : noResultB (follow a₁ (.cons (.function d (.cons (.result e) .nil)) a₂)) = true)
    (hsa : SetsNothing (follow a₁ (.cons (.function d (.cons (.result e) .nil)) a₂))) (hsig : callSig cs = defSig d) (hd : defSig d ∉ definesB a₂)
    (hlib : ∀ q ∈ callsE e, q ∉ definesB (follow a₁ (.cons (.function d (.cons (.result e) .nil)) a₂)))
    (hc : LeavesZeros (.cons (h.fill (.call cs)) c)) {w : World} (hw : MemoPure z w) (hdep : w.settings.currDepth < w.settings.maxFuncDepth)
    (hargs : TakesArgs R (n + 1) (follow a₁ (.cons (.function d (.cons (.result e) .nil)) a₂)) w d cs) :
    (run R (n + 1) (follow (follow a₁ (.cons (.function d (.cons (.result e) .nil)) a₂)) (.cons (h.fill (inlined d e cs)) c)) w).1 =
      (run R (n + 1) (follow (follow a₁ (.cons (.function d (.cons (.result e) .nil)) a₂)) (.cons (h.fill (.call cs)) c)) w).1 := by
  obtain ⟨g1, g2⟩ := noResultB_parts hra
  have g3 : noResultB a₂ = true := by
    rw [noResultB, Bool.and_eq_true] at g2
    exact g2.2
  obtain ⟨outs, hrun, hval⟩ := hargs
  have hdef := @defined_after R (n + 1) a₁ a₂ d (.cons (.result e) .nil) g1 g3 hd
  generalize follow a₁ (.cons (.function d (.cons (.result e) .nil)) a₂) = a at *
  obtain ⟨s, v, e1, rfl⟩ := run_ok hra hrun
  have hfn := hdef e1
  have hwb : MemoPure z w.bare := hw
  have hs0 : Fit z (functionsB a) s := fit_sets hra hsa (fun _ h => h) (fit_begin R z _) w.bare (s, none) (by rw [e1])
  have hE := equal_after (R := R) (n := n + 1) hsa (fit_begin R z []) hwb (r := (s, none)) (by rw [e1])
  rw [e1] at hE
  have hv : MemoPure z v := hE.right
  have hsv : Alike w.settings v.settings := hE.settings
  have hk := kept_B (R := R) (call := runCall R (n + 1)) a (begin_ R) hra w.bare (s, none) (by rw [e1])
  have hcl : CallsLib s.fns (callsE e) := by
    intro q hq f hf
    rw [hk.fns q (hlib q hq)] at hf
    exact libraryFns_deepless R (q, f) (lookup_entry_mem hf)
  have hworth : ∀ p ∈ (paramsOf d).zip (argsOf cs), ∃ o, fits p.1.2 o = true ∧ Worth R (n + 1) z v.settings s.fns s.fr p.2 o := by
    intro p hp
    obtain ⟨o, h1, h2⟩ := hval p hp
    refine ⟨o, h1, ?_⟩
    have hu : Unneeded a .nil (.cons (.output p.2) .nil) := by
      refine ⟨fun q _ => ⟨fun x _ => .inl ?_, fun x _ => ?_, fun x _ => ?_⟩, fun x _ => ?_, fun x _ => ?_⟩ <;> simp [assignsB, definesB]
    have hstep : runB R (runCall R (n + 1)) (.cons (.output p.2) .nil) s v = (match runE R (runCall R (n + 1)) s.fns s.fr p.2 v with
        | (.error f, u) => (.error f, u)
        | (.ok o, u) => (.ok (s, none), { u with outs := u.outs ++ [(o, none)] })) := by
      rw [runB, runS, bind_assoc, M.bind_apply]
      rcases runE R (runCall R (n + 1)) s.fns s.fr p.2 v with ⟨f | o, u⟩ <;> rfl
    rw [run_result_outs (x := (runB R (runCall R (n + 1)) (.cons (.output p.2) .nil) s v).1)
      (v := (runB R (runCall R (n + 1)) (.cons (.output p.2) .nil) s v).2) (by rw [runB_after e1]), hstep] at h2
    have hval' : (runE R (runCall R (n + 1)) s.fns s.fr p.2 v).1 = .ok o ∧ (runE R (runCall R (n + 1)) s.fns s.fr p.2 v).2.outs = v.outs := by
      revert h2
      rcases runE R (runCall R (n + 1)) s.fns s.fr p.2 v with ⟨f | o', u⟩ <;> intro h2
      · cases h2
      · have h3 : u.outs ++ [(o', (none : Option PyText))] = v.outs ++ [(o, none)] := Except.ok.inj h2
        obtain ⟨h4, h5⟩ := List.append_inj' h3 rfl
        cases h5
        exact ⟨rfl, h4⟩
    exact keeps_unneeded hu hs0 hv hval'.1 hval'.2 s (Kept.refl ..)
  obtain ⟨os, i1, i2⟩ := args_values _ _ (params_args d cs hsig) hworth
  obtain ⟨j1, j2⟩ := call_inlined (n := n) hs0.tidy hs0.replay hs0.own hsig hfn hcl i1 i2 (by rw [hsv.now, hsv.depth]; exact hdep) hv (Alike.refl _)
  obtain ⟨k, hk1, hk2⟩ := fill_bind (R := R) (replays_call (R := R) (n + 1)) h c _ hc s hs0.replay
  have hres : ∀ e', (run R (n + 1) (follow a (.cons (h.fill e') c)) w).1 = ((runE R (runCall R (n + 1)) s.fns s.fr e' >>= k) v).1.map
      fun _ => ((runE R (runCall R (n + 1)) s.fns s.fr e' >>= k) v).2.outs := fun e' =>
    run_result_outs (x := ((runE R (runCall R (n + 1)) s.fns s.fr e' >>= k) v).1) (v := ((runE R (runCall R (n + 1)) s.fns s.fr e' >>= k) v).2)
      (by rw [runB_after e1, hk1])
  rw [hres, hres, M.bind_apply, M.bind_apply]
  rcases hx : runE R (runCall R (n + 1)) s.fns s.fr (.call cs) v with ⟨x, u⟩
  rcases hy : runE R (runCall R (n + 1)) s.fns s.fr (inlined d e cs) v with ⟨y, u'⟩
  rw [hx, hy] at j1
  rw [hx, hy] at j2
  dsimp only at j1 j2
  subst j1
  cases y with
  | error f => rfl
  | ok o =>
    dsimp only
    obtain ⟨l1, l2⟩ := hk2 o u u' [] (j2 o rfl)
    rw [l1, l2.outs, List.nil_append]

end PythonDice
