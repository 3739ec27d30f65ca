import Verif.Proofs.Sequel
import Verif.Spec.Simplify

/-!
# Programs that are written otherwise do the same
-/

namespace PythonDice

open Spec Compiler

/-- The same variables in sight; of the names that belong to the function the order does not matter. -/
structure RwFrame (f f' : Frame) : Prop where
  env : f.env = f'.env
  outer : f.outer = f'.outer
  own : (f.own = none ∧ f'.own = none) ∨ ∃ l l', f.own = some l ∧ f'.own = some l' ∧ ∀ x, x ∈ l ↔ x ∈ l'

/-- The same function, written otherwise. -/
inductive RwFn : Spec.Fn → Spec.Fn → Prop
  | lib (f) : RwFn (.lib f) (.lib f)
  | user (d) {b b'} : RewriteB b b' → RwFn (.user d b) (.user d b')

/-- The same functions, written otherwise. -/
def RwFns : Fns → Fns → Prop := List.Forall₂ fun p q => p.1 = q.1 ∧ RwFn p.2 q.2

/-- The same at a point of the program. -/
structure RwSt (s s' : State) : Prop where
  fns : RwFns s.fns s'.fns
  fr : RwFrame s.fr s'.fr

/-- The same after a statement. -/
def RwRes (r r' : State × Option Obj) : Prop := RwSt r.1 r'.1 ∧ r.2 = r'.2

/-- Calls of functions written otherwise. -/
def CallRw (call : RunCall) : Prop := ∀ fr fr' l l' d b b' args, RwFrame fr fr' → RwFns l l' → RewriteB b b' → call fr l d b args = call fr' l' d b' args

theorem RwFrame.find {f f' : Frame} (h : RwFrame f f') (x : List Char) : f.find x = f'.find x := by
  unfold Frame.find
  rcases h.own with ⟨h1, h2⟩ | ⟨l, l', h1, h2, h3⟩
  · rw [h1, h2, h.env]
  · rw [h1, h2, h.env, h.outer]
    simp only [h3 x]

theorem RwFrame.program {f f' : Frame} (h : RwFrame f f') : f.program = f'.program := by
  unfold Frame.program
  rcases h.own with ⟨h1, h2⟩ | ⟨l, l', h1, h2, h3⟩ <;> rw [h1, h2]
  · exact h.env
  · exact h.outer

theorem RwFrame.set {f f' : Frame} (h : RwFrame f f') (x : List Char) (o : Obj) : RwFrame (f.set x o) (f'.set x o) :=
  ⟨by rw [Frame.set, Frame.set, h.env], h.outer, h.own⟩

theorem RwFrame.getVar {f f' : Frame} (h : RwFrame f f') (R : Rules) (x : List Char) : getVar R f x = getVar R f' x := by
  rw [Spec.getVar, Spec.getVar, h.find]

theorem RwFrame.textOf {f f' : Frame} (h : RwFrame f f') (R : Rules) (ps : List StrPart) : textOf R f ps = textOf R f' ps := by
  induction ps with
  | nil => rfl
  | cons p ps ih =>
    cases p with
    | text s => rw [Spec.textOf, Spec.textOf, ih]
    | var x => rw [Spec.textOf, Spec.textOf, ih, h.getVar]

theorem RwFns.lookup {l l' : Fns} (h : RwFns l l') (q : Sig) :
    (l.lookup q = none ∧ l'.lookup q = none) ∨ ∃ f f', l.lookup q = some f ∧ l'.lookup q = some f' ∧ RwFn f f' := by
  induction h with
  | nil => exact .inl ⟨rfl, rfl⟩
  | @cons p p' l l' hp _ ih =>
    rw [List.lookup_cons, List.lookup_cons, ← hp.1]
    cases q == p.1 with
    | true => exact .inr ⟨_, _, rfl, rfl, hp.2⟩
    | false => exact ih

theorem rw_apply {call : RunCall} (hc : CallRw call) {l l' : Fns} (hl : RwFns l l') {fr fr' : Frame} (hf : RwFrame fr fr') {f f' : Spec.Fn} (h : RwFn f f')
    (args : List Obj) : applyFn call l fr f args = applyFn call l' fr' f' args := by
  cases h with
  | lib g => rfl
  | user d hb => exact hc _ _ _ _ _ _ _ _ hf hl hb

theorem rw_getFn {l l' : Fns} (hl : RwFns l l') (q : Sig) {β : Type} {k k' : Spec.Fn → M β} (hk : ∀ f f', RwFn f f' → k f = k' f') :
    (getFn l q >>= k) = (getFn l' q >>= k') := by
  rw [getFn, getFn]
  rcases hl.lookup q with ⟨h1, h2⟩ | ⟨f, f', h1, h2, h3⟩
  · rw [h1, h2]
    rfl
  · rw [h1, h2]
    simp only [pure_bind]
    exact hk _ _ h3

/-! ## Expressions -/

theorem constBin_run (i : Bool) {op : Compiler.BinOp} {a b n : ℤ} (h : constBin op a b = some n) : runBin i op (.num a) (.num b) = pure (.num n) := by
  cases op <;> simp only [constBin, Option.some.injEq, reduceCtorEq] at h <;> subst h <;> rfl

theorem constE_run (R : Rules) (call : RunCall) (l : Fns) (fr : Frame) (e : Expr) {n : ℤ} (h : constE e = some n) : runE R call l fr e = pure (.num n) := by
  match e with
  | .num s =>
    simp only [constE, Option.some.injEq] at h
    rw [runE, h]
  | .group e =>
    rw [constE] at h
    rw [runE, constE_run R call l fr e h]
  | .unary .plus e =>
    rw [constE] at h
    rw [runE, constE_run R call l fr e h]
    rfl
  | .unary .minus e =>
    rw [constE, Option.map_eq_some_iff] at h
    obtain ⟨a, h1, h2⟩ := h
    rw [runE, constE_run R call l fr e h1, ← h2]
    rfl
  | .bin op a b =>
    rw [constE] at h
    split at h
    · rename_i x y h1 h2
      rw [runE, constE_run R call l fr a h1, constE_run R call l fr b h2, pure_bind, pure_bind, constBin_run _ h]
    · cases h
  | .unary .not_ _ | .dec _ _ | .var _ | .str _ | .ndm _ _ | .dm _ | .hash _ | .seq _ | .call _ => simp only [constE, reduceCtorEq] at h

/-- The objects that a sequence that is written out is made from. -/
theorem constItems_run (R : Rules) (call : RunCall) (l : Fns) (fr : Frame) (es : Elems) {ns : List ℤ} (h : constItems es = some ns) :
    ∃ os, runElems R call l fr es = pure os ∧ ∀ tl, flattenList (os.map Obj.toSrc ++ tl) = ns.map Src.num ++ flattenList tl := by
  match es with
  | .nil =>
    simp only [constItems, Option.some.injEq] at h
    subst h
    exact ⟨[], by rw [runElems], fun tl => rfl⟩
  | .expr e es =>
    rw [constItems] at h
    split at h
    · rename_i a m h1 h2
      cases h
      obtain ⟨os, h3, h4⟩ := constItems_run R call l fr es h2
      refine ⟨.num a :: os, by rw [runElems, constE_run R call l fr e h1, h3]; rfl, fun tl => ?_⟩
      rw [List.map_cons, List.cons_append, flattenList, h4, Obj.toSrc, flattenSrc, List.map_cons]
      rfl
      · intro _ hh; cases hh
    · cases h
  | .range a b es =>
    rw [constItems] at h
    split at h
    · rename_i x y m h1 h2 h3
      cases h
      obtain ⟨os, h4, h5⟩ := constItems_run R call l fr es h3
      have hn : ∀ s : List ℤ, flattenList (s.map Src.num) = s.map Src.num := by
        intro s
        induction s with
        | nil => rfl
        | cons x s ih =>
          rw [List.map_cons, flattenList, ih, flattenSrc]
          rfl
          intro _ hh; cases hh
      refine ⟨.seq (pyRange x (y + 1)) :: os, by rw [runElems, constE_run R call l fr a h1, constE_run R call l fr b h2, h4]; rfl, fun tl => ?_⟩
      rw [List.map_cons, List.cons_append, flattenList, h5, Obj.toSrc, flattenSrc, hn, List.map_append, List.append_assoc, pyRange]
      congr 4
      omega
    · cases h

theorem constSeq_run (R : Rules) (call : RunCall) (l : Fns) (fr : Frame) {es : Elems} {ns : List ℤ} (h : constItems es = some ns) :
    runE R call l fr (.seq es) = pure (.seq ns) := by
  obtain ⟨os, h1, h2⟩ := constItems_run R call l fr es h
  have h3 := h2 []
  rw [List.append_nil, flattenList, List.append_nil] at h3
  have h4 : ∀ s : List ℤ, (s.map Src.num).flatMap Src.numVals = s ∧ (s.map Src.num).flatMap Src.rvVals = [] := by
    intro s
    induction s with
    | nil => exact ⟨rfl, rfl⟩
    | cons x s ih =>
      rw [List.map_cons, List.flatMap_cons, List.flatMap_cons, ih.1, ih.2]
      exact ⟨rfl, rfl⟩
  rw [runE, h1, pure_bind, getSeq]
  simp only [flattenList, flattenSrc, List.append_nil, h3, h4]

theorem rw_callSig {cs cs' : CallParts} (h : RewriteC cs cs') : callSig cs = callSig cs' := by
  match h with
  | .nil => rfl
  | .word w h => rw [callSig, callSig, rw_callSig h]
  | .arg _ h => rw [callSig, callSig, rw_callSig h]

section
variable {R : Rules} {call : RunCall} (hc : CallRw call) {l l' : Fns} (hl : RwFns l l') {fr fr' : Frame} (hf : RwFrame fr fr')
include hc hl hf

mutual

theorem rw_E {e e' : Expr} (h : RewriteX e e') : runE R call l fr e = runE R call l' fr' e' := by
  match h with
  | .num _ => simp only [runE]
  | .dec _ _ => simp only [runE]
  | .var x => rw [runE, runE, hf.getVar]
  | .str _ => simp only [runE]
  | .group h => rw [runE, runE, rw_E h]
  | .bin op h1 h2 => rw [runE, runE, rw_E h1, rw_E h2]
  | .ndm h1 h2 => rw [runE, runE, rw_E h1, rw_E h2]
  | .dm h => rw [runE, runE, rw_E h]
  | .unary op h => rw [runE, runE, rw_E h]
  | .hash h => rw [runE, runE, rw_E h]
  | .seq h => rw [runE, runE, rw_L h]
  | .call h =>
    rw [runE, runE, rw_C h, rw_callSig h]
    exact rw_getFn hl _ fun f f' hff => bind_congr fun args => rw_apply hc hl hf hff args
  | .bare h => rw [runE, rw_E h]
  | .calc h1 h2 => rw [constE_run R call l fr _ h1, constE_run R call l' fr' _ h2]

theorem rw_L {es es' : Elems} (h : RewriteL es es') : runElems R call l fr es = runElems R call l' fr' es' := by
  match h with
  | .nil => simp only [runElems]
  | .expr h1 h2 => rw [runElems, runElems, rw_E h1, rw_L h2]
  | .range h1 h2 h3 => rw [runElems, runElems, rw_E h1, rw_E h2, rw_L h3]

theorem rw_C {cs cs' : CallParts} (h : RewriteC cs cs') : runArgs R call l fr cs = runArgs R call l' fr' cs' := by
  match h with
  | .nil => simp only [runArgs]
  | .word w h => rw [runArgs, runArgs, rw_C h]
  | .arg h1 h2 => rw [runArgs, runArgs, rw_E h1, rw_C h2]

end

end

/-! ## The variables that are given values -/

theorem assignsB_follow (b c : Block) : assignsB (follow b c) = assignsB b ++ assignsB c := by
  match b with
  | .nil => rfl
  | .cons s b => rw [follow, assignsB, assignsB, assignsB_follow b c, List.append_assoc]

theorem assignsB_unrolled (x : List Char) (b : Block) {cs : List Expr} (h : cs ≠ []) (y : List Char) :
    y ∈ assignsB (unrolled x b cs) ↔ y = x ∨ y ∈ assignsB b := by
  induction cs with
  | nil => exact absurd rfl h
  | cons c cs ih =>
    rw [unrolled, assignsB, assignsS, assignsB_follow, List.mem_append, List.mem_append, List.mem_singleton]
    cases cs with
    | nil => simp [unrolled, assignsB]
    | cons c' cs =>
      rw [ih (List.cons_ne_nil _ _)]
      tauto

theorem assigns_elseBlock (r : Else) : assignsB (elseBlock r) = assignsE r := by
  cases r <;> simp [elseBlock, assignsB, assignsS, assignsE]

mutual

theorem rw_assignsS {s s' : Stmt} (h : RewriteS s s') (y : List Char) : y ∈ assignsS s ↔ y ∈ assignsS s' := by
  match h with
  | .output _ | .outputNamed _ _ | .setText _ _ | .set _ _ _ _ | .function _ _ | .result _ | .assign _ _ => simp [assignsS]
  | .cond _ h1 h2 => simp only [assignsS, List.mem_append, rw_assignsB h1 y, rw_assignsE h2 y]
  | .loop x _ h => simp only [assignsS, List.mem_cons, rw_assignsB h y]

theorem rw_assignsB {b b' : Block} (h : RewriteB b b') (y : List Char) : y ∈ assignsB b ↔ y ∈ assignsB b' := by
  match h with
  | .nil => rfl
  | .cons h1 h2 => simp only [assignsB, List.mem_append, rw_assignsS h1 y, rw_assignsB h2 y]
  | .unroll x h1 h2 h3 h4 h5 =>
    rw [assignsB_follow, assignsB, assignsS, List.mem_append, List.mem_append, assignsB_unrolled x _ h3, List.mem_cons, rw_assignsB h4 y, rw_assignsB h5 y]
  | .taken h1 h2 h3 h4 h5 =>
    rw [assignsB_follow, assignsB, assignsS, h3, List.append_nil, List.mem_append, List.mem_append, rw_assignsB h4 y, rw_assignsB h5 y]
  | .passed h1 h2 h3 h4 =>
    rw [assignsB_follow, assignsB, assignsS, h2, List.nil_append, List.mem_append, List.mem_append, assigns_elseBlock, rw_assignsE h3 y, rw_assignsB h4 y]

theorem rw_assignsE {r r' : Else} (h : RewriteE r r') (y : List Char) : y ∈ assignsE r ↔ y ∈ assignsE r' := by
  match h with
  | .done => rfl
  | .else_ h => simp only [assignsE, rw_assignsB h y]
  | .elif _ h1 h2 => simp only [assignsE, List.mem_append, rw_assignsB h1 y, rw_assignsE h2 y]
  | .empty => simp [assignsE, assignsB]
  | .nest _ h1 h2 => simp only [assignsE, assignsB, assignsS, List.append_nil, List.mem_append, rw_assignsB h1 y, rw_assignsE h2 y]

end

/-! ## Statements -/

section
variable {R : Rules} {call : RunCall}

theorem rw_set (hc : CallRw call) {s s' : State} (h : RwSt s s') (n : List StrPart) {e e' : Expr} (h1 : NoText e) (h2 : NoText e') (he : RewriteX e e') :
    runSet R call s n e = runSet R call s' n e' := by
  have key : ∀ (t : State) (a : Expr), NoText a → runSet R call t n a = (textOf R t.fr n >>= fun m => runE R call t.fns t.fr a >>= fun o => settingsSetObj m o) := by
    intro t a ha
    cases a with
    | str ps => exact absurd rfl (ha ps)
    | _ => rfl
  rw [key s e h1, key s' e' h2, h.fr.textOf, rw_E hc h.fns h.fr he]

theorem rw_loop {f f' : State → ℤ → M (State × Option Obj)} (h : ∀ s s' n, RwSt s s' → Both RwRes (f s n) (f' s' n)) (ns : List ℤ) {s s' : State}
    (hs : RwSt s s') : Both RwRes (runLoop f ns s) (runLoop f' ns s') := by
  induction ns generalizing s s' with
  | nil => exact Both.pure ⟨hs, rfl⟩
  | cons n ns ih =>
    rw [runLoop, runLoop]
    refine (h s s' n hs).bind fun r r' hr => ?_
    rw [hr.2]
    cases r'.2 with
    | some v => exact Both.pure ⟨hr.1, rfl⟩
    | none => exact ih hr.1

/-- What comes after a block. -/
theorem rw_next {m m' : M (State × Option Obj)} (h : Both RwRes m m') {k k' : State → M (State × Option Obj)}
    (hk : ∀ s s', RwSt s s' → Both RwRes (k s) (k' s')) : Both RwRes
    (m >>= fun r => match r.2 with | some v => pure (r.1, some v) | none => k r.1)
    (m' >>= fun r => match r.2 with | some v => pure (r.1, some v) | none => k' r.1) := by
  refine h.bind fun r r' hr => ?_
  rw [hr.2]
  cases r'.2 with
  | some v => exact Both.pure ⟨hr.1, rfl⟩
  | none => exact hk _ _ hr.1

/-- A loop is its body for each of the values. -/
theorem unrolled_run (x : List Char) (b : Block) {cs : List Expr} {ns : List ℤ} (h : cs.map constE = ns.map some) (s : State) :
    runB R call (unrolled x b cs) s = runLoop (fun s n => runB R call b { s with fr := s.fr.set x (.num n) }) ns s := by
  induction cs generalizing ns s with
  | nil =>
    cases ns with
    | nil => rw [unrolled, runB, runLoop]
    | cons n ns => cases h
  | cons c cs ih =>
    cases ns with
    | nil => cases h
    | cons n ns =>
      rw [List.map_cons, List.map_cons, List.cons.injEq] at h
      rw [unrolled, runB, runS, constE_run _ _ _ _ _ h.1, pure_bind, pure_bind]
      dsimp only
      rw [runB_follow, runLoop]
      refine bind_congr fun r => ?_
      cases r.2 with
      | some v => rfl
      | none => exact ih h.2 r.1

theorem elseBlock_run (r : Else) (s : State) : runB R call (elseBlock r) s = runElse R call r s := by
  cases r with
  | done => rw [elseBlock, runB, runElse]
  | else_ b => rw [elseBlock, runElse]
  | elif c b r =>
    rw [elseBlock, runB, runS, runElse]
    have key : ∀ m : M (State × Option Obj), (m >>= fun r => match r.2 with | some v => pure (r.1, some v) | none => runB R call .nil r.1) = m := by
      intro m
      conv_rhs => rw [← bind_pure m]
      refine bind_congr fun r => ?_
      rcases r with ⟨t, o⟩
      cases o with
      | some v => rfl
      | none => dsimp only; rw [runB]
    exact key _

variable (hc : CallRw call)
include hc

mutual

theorem rw_S {st st' : Stmt} (h : RewriteS st st') {s s' : State} (hs : RwSt s s') : Both RwRes (runS R call st s) (runS R call st' s') := by
  match h with
  | .output h =>
    rw [runS, runS, rw_E hc hs.fns hs.fr h]
    exact Both.same fun o => Both.same fun _ => Both.pure ⟨hs, rfl⟩
  | .outputNamed t h =>
    rw [runS, runS, rw_E hc hs.fns hs.fr h, hs.fr.textOf]
    exact Both.same fun o => Both.same fun _ => Both.same fun _ => Both.pure ⟨hs, rfl⟩
  | .setText n ps =>
    rw [runS, runS, runSet, runSet, hs.fr.textOf, hs.fr.textOf]
    exact Both.same fun _ => Both.pure ⟨hs, rfl⟩
  | .set n h1 h2 h =>
    rw [runS, runS, rw_set hc hs n h1 h2 h]
    exact Both.same fun _ => Both.pure ⟨hs, rfl⟩
  | .function d h =>
    rw [runS, runS]
    exact Both.pure ⟨⟨.cons ⟨rfl, .user d h⟩ hs.fns, hs.fr⟩, rfl⟩
  | .result h =>
    rw [runS, runS, rw_E hc hs.fns hs.fr h]
    exact Both.same fun o => Both.pure ⟨hs, rfl⟩
  | .cond h1 h2 h3 =>
    rw [runS, runS, rw_E hc hs.fns hs.fr h1]
    refine Both.same fun o => Both.same fun t => ?_
    cases t with
    | true => exact rw_B h2 hs
    | false => exact rw_Else h3 hs
  | .loop x h1 h2 =>
    rw [runS, runS, rw_E hc hs.fns hs.fr h1]
    exact Both.same fun o => Both.same fun ns => rw_loop (fun t t' n ht =>
      rw_B h2 (s := { t with fr := t.fr.set x (.num n) }) (s' := { t' with fr := t'.fr.set x (.num n) }) ⟨ht.fns, ht.fr.set x _⟩) ns hs
  | .assign x h =>
    rw [runS, runS, rw_E hc hs.fns hs.fr h]
    exact Both.same fun o => Both.pure ⟨⟨hs.fns, hs.fr.set x o⟩, rfl⟩

theorem rw_B {b b' : Block} (h : RewriteB b b') {s s' : State} (hs : RwSt s s') : Both RwRes (runB R call b s) (runB R call b' s') := by
  match h with
  | .nil =>
    rw [runB, runB]
    exact Both.pure ⟨hs, rfl⟩
  | .cons h1 h2 =>
    rw [runB, runB]
    exact rw_next (rw_S h1 hs) fun s s' hss => rw_B h2 hss
  | .unroll x h1 h2 h3 h4 h5 =>
    rw [runB, runS, constSeq_run _ _ _ _ h1, runB_follow, unrolled_run x _ h2, pure_bind, iterOp, pure_bind]
    exact rw_next (rw_loop (fun t t' n ht =>
      rw_B h4 (s := { t with fr := t.fr.set x (.num n) }) (s' := { t' with fr := t'.fr.set x (.num n) }) ⟨ht.fns, ht.fr.set x _⟩) _ hs) fun s s' hss => rw_B h5 hss
  | .taken h1 h2 h3 h4 h5 =>
    rw [runB, runS, constE_run _ _ _ _ _ h1, runB_follow, pure_bind, truthOp, pure_bind, if_pos (by simpa using h2)]
    exact rw_next (rw_B h4 hs) fun s s' hss => rw_B h5 hss
  | .passed h1 h2 h3 h4 =>
    rw [runB, runS, constE_run _ _ _ _ _ h1, runB_follow, elseBlock_run, pure_bind, truthOp, pure_bind, if_neg (by decide)]
    exact rw_next (rw_Else h3 hs) fun s s' hss => rw_B h4 hss

theorem rw_Else {r r' : Else} (h : RewriteE r r') {s s' : State} (hs : RwSt s s') : Both RwRes (runElse R call r s) (runElse R call r' s') := by
  match h with
  | .done =>
    rw [runElse, runElse]
    exact Both.pure ⟨hs, rfl⟩
  | .else_ h =>
    rw [runElse, runElse]
    exact rw_B h hs
  | .elif h1 h2 h3 =>
    rw [runElse, runElse, rw_E hc hs.fns hs.fr h1]
    refine Both.same fun o => Both.same fun t => ?_
    cases t with
    | true => exact rw_B h2 hs
    | false => exact rw_Else h3 hs
  | .empty =>
    rw [runElse, runElse, runB]
    exact Both.pure ⟨hs, rfl⟩
  | .nest (c' := c') (b' := b') (r' := r') h1 h2 h3 =>
    have e : runElse R call (.else_ (.cons (.cond c' b' r') .nil)) s' = runElse R call (.elif c' b' r') s' := by
      rw [← elseBlock_run, ← elseBlock_run]
      rfl
    rw [e, runElse, runElse, rw_E hc hs.fns hs.fr h1]
    refine Both.same fun o => Both.same fun t => ?_
    cases t with
    | true => exact rw_B h2 hs
    | false => exact rw_Else h3 hs

end

end

/-! ## Calls and programs -/

theorem both_eq {α β : Type} {P : α → α → Prop} {m m' : M α} (h : Both P m m') {f f' : α → β} (hf : ∀ a a', P a a' → f a = f' a') :
    (m >>= fun a => pure (f a)) = (m' >>= fun a => pure (f' a)) := by
  funext w
  obtain ⟨h1, h2, h3⟩ := h w
  rw [M.bind_apply, M.bind_apply]
  rcases hr : m w with ⟨r, v⟩
  rcases hr' : m' w with ⟨r', v'⟩
  rw [hr, hr'] at h1 h2 h3
  dsimp only at h1 h2 h3
  subst h1
  cases r with
  | error e =>
    have := h2 e rfl
    subst this
    rfl
  | ok a =>
    obtain ⟨a', rfl, ha⟩ := h3 a rfl
    dsimp only
    rw [hf a a' ha]

theorem rw_enter (R : Rules) {fr fr' : Frame} (h : RwFrame fr fr') (d : List DefPart) {b b' : Block} (hb : RewriteB b b') (args : List Obj) :
    RwFrame (enter R fr d b args) (enter R fr' d b' args) := by
  unfold enter
  split
  · exact ⟨by rw [h.env], rfl, .inl ⟨rfl, rfl⟩⟩
  · refine ⟨rfl, h.program, .inr ⟨_, _, rfl, rfl, fun x => ?_⟩⟩
    rw [List.mem_append, List.mem_append, rw_assignsB hb]

theorem rw_call (R : Rules) (n : ℕ) : CallRw (runCall R n) := by
  induction n with
  | zero => intro _ _ _ _ _ _ _ _ _ _ _; rfl
  | succ n ih =>
    intro fr fr' l l' d b b' args hf hl hb
    unfold runCall
    congr 1
    funext os
    exact both_eq (rw_B ih hb ⟨hl, rw_enter R hf d hb os⟩) fun r r' h => h.2

theorem RwFns.refl_lib : RwFns libraryFns libraryFns := by
  unfold RwFns libraryFns fn1 fn2
  repeat' (first | exact .nil | refine .cons ⟨rfl, .lib _⟩ ?_)

theorem rw_run {R : Rules} {n : ℕ} {b b' : Block} (h : RewriteB b b') : run R n b = run R n b' := by
  rw [run, run]
  refine bind_congr fun _ => ?_
  have hl : RwFns (if R.lib then libraryFns else []) (if R.lib then libraryFns else []) := by
    split
    · exact RwFns.refl_lib
    · exact .nil
  have := both_eq (rw_B (R := R) (rw_call R n) h (s := ⟨if R.lib then libraryFns else [], ⟨none, [], []⟩⟩)
    (s' := ⟨if R.lib then libraryFns else [], ⟨none, [], []⟩⟩) ⟨hl, ⟨rfl, rfl, .inl ⟨rfl, rfl⟩⟩⟩) (f := fun _ => ()) (f' := fun _ => ()) fun _ _ _ => rfl
  have e : ∀ m : M (State × Option Obj), (m >>= fun _ => M.get >>= fun w => pure w.outs) = ((m >>= fun _ => pure ()) >>= fun _ => M.get >>= fun w => pure w.outs) := by
    intro m
    rw [bind_assoc]
    rfl
  rw [e, this, ← e]

theorem rewritten_run {R : Rules} {n : ℕ} {b b' : Block} (h : Rewritten b b') : run R n b = run R n b' := by
  induction h with
  | rel _ _ h => exact rw_run h
  | refl => rfl
  | symm _ _ _ ih => exact ih.symm
  | trans _ _ _ _ _ ih ih' => exact ih.trans ih'

end PythonDice
