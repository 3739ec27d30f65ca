import Verif.Proofs.Insert
import Verif.Spec.Replace

/-!
# An expression in the place of a variable
-/

namespace PythonDice

open Spec Compiler

/-- Two computations that, under given settings, do the same as far as a program can notice. -/
def Matches {α : Type} (z : Bool) (A : Settings) (m m' : M α) : Prop := ∀ w w', Like z [] w w' → Alike A w.settings →
  (m' w').1 = (m w).1 ∧ Like z [] (m w).2 (m' w').2 ∧ ∀ a, (m w).1 = .ok a → Alike A (m w).2.settings

namespace Matches
variable {α β : Type} {z : Bool} {A : Settings}

theorem same {m : M α} (h : Replays z m) (ht : Tidy m) : Matches z A m m := fun w w' hw hA =>
  ⟨(h w w' [] hw).1, (h w w' [] hw).2, fun a ha => hA.trans (ht w a ha)⟩

theorem quiet {m : M α} (h : Replays z m) (ht : KeepsSettings m) : Matches z A m m := same h (Tidy.quiet ht)

theorem pure (a : α) : Matches z A (Pure.pure a : M α) (Pure.pure a) := quiet (Replays.pure a) (KeepsSettings.pure a)

theorem bindTo {P : α → Prop} {m m' : M α} {f f' : α → M β} (hm : Matches z A m m') (hl : Leads P m) (hf : ∀ a, P a → Matches z A (f a) (f' a)) :
    Matches z A (m >>= f) (m' >>= f') := by
  intro w w' hw hA
  obtain ⟨h1, h2, h3⟩ := hm w w' hw hA
  have h4 := hl w
  rw [M.bind_apply, M.bind_apply]
  rcases hr : m w with ⟨r, v⟩
  rcases hr' : m' w' with ⟨r', v'⟩
  rw [hr, hr'] at h1 h2
  rw [hr] at h3 h4
  dsimp only at h1 h2 h3 h4
  subst h1
  cases r' with
  | error e => exact ⟨rfl, h2, fun _ h => by cases h⟩
  | ok x => exact hf x (h4 x rfl) v v' h2 (h3 x rfl)

theorem bind {m m' : M α} {f f' : α → M β} (hm : Matches z A m m') (hf : ∀ a, Matches z A (f a) (f' a)) : Matches z A (m >>= f) (m' >>= f') :=
  bindTo (P := fun _ => True) hm (fun _ _ _ => trivial) fun a _ => hf a

end Matches

theorem callSig_replace (x : List Char) (e : Expr) (cs : CallParts) : callSig (replaceArgs x e cs) = callSig cs := by
  match cs with
  | .nil => rw [replaceArgs]
  | .word w cs => rw [replaceArgs, callSig, callSig, callSig_replace x e cs]
  | .arg a cs => rw [replaceArgs, callSig, callSig, callSig_replace x e cs]

section
variable {R : Rules} {n : ℕ} {z : Bool} {A : Settings} {x : List Char} {e : Expr} {o : Obj}

/-- States in which the variable has the value of the expression. -/
structure Holds (R : Rules) (n : ℕ) (z : Bool) (A : Settings) (x : List Char) (e : Expr) (o : Obj) (s : State) : Prop where
  own : s.fr.own = none
  var : s.fr.env.lookup x = some o
  tidy : FnsTidy s.fns
  replay : FnsReplay z s.fns
  value : ∀ w, MemoPure z w → Alike A w.settings → (runE R (runCall R n) s.fns s.fr e w).1 = .ok o ∧ (runE R (runCall R n) s.fns s.fr e w).2.outs = w.outs

theorem Holds.matches {s : State} (h : Holds R n z A x e o s) : Matches z A (getVar R s.fr x) (runE R (runCall R n) s.fns s.fr e) := by
  intro w w' hw hA
  have hg : getVar R s.fr x = pure o := by
    unfold getVar Frame.find
    rw [h.own]
    dsimp only
    rw [h.var]
  have hA' : Alike A w'.settings := hA.trans hw.settings
  obtain ⟨h1, h2⟩ := h.value w' hw.right hA'
  rw [hg]
  refine ⟨h1, ⟨hw.settings.trans (tidy_E (tidy_call (R := R) n) h.tidy s.fr e w' o h1), ?_, hw.left, ?_⟩, fun _ _ => hA⟩
  · rw [h2]
    exact hw.outs
  · exact ((replays_E (R := R) (replays_call (R := R) n) h.replay s.fr e w' w' [] ⟨Alike.refl _, rfl, hw.right, hw.right⟩).2).left

mutual

theorem replace_E {s : State} (h : Holds R n z A x e o s) (a : Expr) :
    Matches z A (runE R (runCall R n) s.fns s.fr a) (runE R (runCall R n) s.fns s.fr (replaceE x e a)) := by
  match a with
  | .num k =>
    rw [replaceE, runE]
    exact Matches.pure _
  | .dec _ _ =>
    rw [replaceE, runE]
    exact Matches.quiet (Replays.throw _) (KeepsSettings.throw _)
  | .var y =>
    rw [replaceE]
    by_cases hy : y = x
    · rw [if_pos hy, hy, runE, runE]
      exact h.matches
    · rw [if_neg hy, runE]
      exact Matches.quiet (Replays.getVar R s.fr y) (KeepsSettings.getVar R s.fr y)
  | .str _ =>
    rw [replaceE, runE]
    exact Matches.quiet (Replays.throw _) (KeepsSettings.throw _)
  | .group a =>
    rw [replaceE, runE, runE]
    exact replace_E h a
  | .bin op l r =>
    rw [replaceE, runE, runE]
    exact (replace_E h l).bind fun a => (replace_E h r).bind fun b => Matches.quiet (Replays.runBin _ _ _ _) (KeepsSettings.runBin _ _ _ _)
  | .ndm l r =>
    rw [replaceE, runE, runE]
    exact (replace_E h l).bind fun a => (replace_E h r).bind fun b => Matches.quiet (Replays.roll _ _) (KeepsSettings.roll _ _)
  | .dm r =>
    rw [replaceE, runE, runE]
    exact (replace_E h r).bind fun b => Matches.quiet (Replays.roll1 _) (KeepsSettings.roll1 _)
  | .unary op a =>
    rw [replaceE, runE, runE]
    exact (replace_E h a).bind fun b => Matches.quiet (Replays.runUnary _ _ _) (KeepsSettings.runUnary _ _ _)
  | .hash a =>
    rw [replaceE, runE, runE]
    exact (replace_E h a).bind fun b => Matches.quiet (Replays.runLen _ _) (KeepsSettings.runLen _ _)
  | .seq es =>
    rw [replaceE, runE, runE]
    exact (replace_L h es).bind fun b => Matches.pure _
  | .call cs =>
    rw [replaceE, runE, runE, callSig_replace]
    unfold getFn
    cases hl : s.fns.lookup (callSig cs) with
    | none => exact fun w w' hw hA => ⟨rfl, hw, fun _ h => by cases h⟩
    | some f =>
      rw [pure_bind, pure_bind]
      obtain ⟨p, hp, rfl⟩ := lookup_mem hl
      refine (replace_C h cs).bind fun args => ?_
      have h1 := h.tidy p hp
      have h2 := h.replay p hp
      unfold applyFn
      rcases p with ⟨q, ⟨d, body⟩ | g⟩
      · exact Matches.same (replays_call (R := R) n s.fr s.fns _ _ args h.replay h2) (tidy_call (R := R) n s.fr s.fns _ _ args h.tidy h1)
      · exact Matches.quiet (h2 args) (h1 args)

theorem replace_L {s : State} (h : Holds R n z A x e o s) (es : Elems) :
    Matches z A (runElems R (runCall R n) s.fns s.fr es) (runElems R (runCall R n) s.fns s.fr (replaceElems x e es)) := by
  match es with
  | .nil =>
    rw [replaceElems, runElems]
    exact Matches.pure _
  | .expr a es =>
    rw [replaceElems, runElems, runElems]
    exact (replace_E h a).bind fun a => (replace_L h es).bind fun b => Matches.pure _
  | .range l r es =>
    rw [replaceElems, runElems, runElems]
    exact (replace_E h l).bind fun a => (replace_E h r).bind fun b => (Matches.quiet (Replays.myRange _ _) (KeepsSettings.myRange _ _)).bind fun s =>
      (replace_L h es).bind fun b => Matches.pure _

theorem replace_C {s : State} (h : Holds R n z A x e o s) (cs : CallParts) :
    Matches z A (runArgs R (runCall R n) s.fns s.fr cs) (runArgs R (runCall R n) s.fns s.fr (replaceArgs x e cs)) := by
  match cs with
  | .nil =>
    rw [replaceArgs, runArgs]
    exact Matches.pure _
  | .word w cs =>
    rw [replaceArgs, runArgs, runArgs]
    exact replace_C h cs
  | .arg a cs =>
    rw [replaceArgs, runArgs, runArgs]
    exact (replace_E h a).bind fun a => (replace_C h cs).bind fun b => Matches.pure _

end

/-- States in a part of a program, which began in a state: the variable keeps its value, and nothing else is lost than what the part gives values to. -/
structure Stays (z : Bool) (x : List Char) (o : Obj) (xs : List (List Char)) (qs : List Sig) (s₀ s : State) : Prop where
  kept : Kept xs qs s₀ (s, none)
  own : s.fr.own = none
  var : s.fr.env.lookup x = some o
  tidy : FnsTidy s.fns
  replay : FnsReplay z s.fns

/-- What a part may do. -/
structure May (x : List Char) (xs : List (List Char)) (qs : List Sig) (as : List (List Char)) (ds : List Sig) : Prop where
  var : x ∉ as
  vars : ∀ y ∈ as, y ∈ xs
  fns : ∀ q ∈ ds, q ∈ qs

theorem May.left {xs as as' : List (List Char)} {qs ds ds' : List Sig} (h : May x xs qs (as ++ as') (ds ++ ds')) : May x xs qs as ds :=
  ⟨fun hx => h.var (List.mem_append_left _ hx), fun y hy => h.vars y (List.mem_append_left _ hy), fun y hy => h.fns y (List.mem_append_left _ hy)⟩

theorem May.right {xs as as' : List (List Char)} {qs ds ds' : List Sig} (h : May x xs qs (as ++ as') (ds ++ ds')) : May x xs qs as' ds' :=
  ⟨fun hx => h.var (List.mem_append_right _ hx), fun y hy => h.vars y (List.mem_append_right _ hy), fun y hy => h.fns y (List.mem_append_right _ hy)⟩

variable {xs : List (List Char)} {qs : List Sig} {s₀ : State}

theorem Stays.step {s : State} {as : List (List Char)} {ds : List Sig} (h : Stays z x o xs qs s₀ s) (hm : May x xs qs as ds) {r : State × Option Obj}
    (hk : Kept as ds s r) (ht : FnsTidy r.1.fns) (hr : FnsReplay z r.1.fns) : Stays z x o xs qs s₀ r.1 ∧ r.2 = none := by
  refine ⟨⟨?_, hk.own.trans h.own, (hk.env x hm.var).trans h.var, ht, hr⟩, hk.none⟩
  exact ⟨rfl, hk.own.trans h.kept.own, hk.outer.trans h.kept.outer, fun y hy => (hk.env y fun hy' => hy (hm.vars y hy')).trans (h.kept.env y hy),
    fun y hy => (hk.fns y fun hy' => hy (hm.fns y hy')).trans (h.kept.fns y hy)⟩

theorem Stays.set {s : State} (h : Stays z x o xs qs s₀ s) {y : List Char} (hy : y ≠ x) (hx : y ∈ xs) (v : Obj) :
    Stays z x o xs qs s₀ ⟨s.fns, s.fr.set y v⟩ :=
  (h.step (as := [y]) (ds := []) ⟨fun h => hy (List.mem_singleton.1 h).symm, fun _ h => by rw [List.mem_singleton.1 h]; exact hx, fun _ h => by cases h⟩
    (Kept.set s y v) h.tidy h.replay).1

theorem stays_S (st : Stmt) (hr : noResultS st = true) (hk : setsOnlyS (fun _ => false) st = true) (hm : May x xs qs (assignsS st) (definesS st)) {s : State}
    (h : Stays z x o xs qs s₀ s) : Leads (fun r : State × Option Obj => Stays z x o xs qs s₀ r.1 ∧ r.2 = none) (runS R (runCall R n) st s) :=
  fun w r e => h.step hm (kept_S st s hr w r e) ((tidy_S (tidy_call (R := R) n) st hk s h.tidy).2 w r e)
    ((replays_S (replays_call (R := R) n) st (setsOnlyS_mono (fun _ h => by cases h) st hk) s h.replay).2 w r e)

theorem stays_B (b : Block) (hr : noResultB b = true) (hk : setsOnlyB (fun _ => false) b = true) (hm : May x xs qs (assignsB b) (definesB b)) {s : State}
    (h : Stays z x o xs qs s₀ s) : Leads (fun r : State × Option Obj => Stays z x o xs qs s₀ r.1 ∧ r.2 = none) (runB R (runCall R n) b s) :=
  fun w r e => h.step hm (kept_B b s hr w r e) ((tidy_B (tidy_call (R := R) n) b hk s h.tidy).2 w r e)
    ((replays_B (replays_call (R := R) n) b (setsOnlyB_mono (fun _ h => by cases h) b hk) s h.replay).2 w r e)

/-- In all states of the part the expression has the value. -/
def Keeps (R : Rules) (n : ℕ) (z : Bool) (A : Settings) (e : Expr) (o : Obj) (xs : List (List Char)) (qs : List Sig) (s₀ : State) : Prop :=
  ∀ s, Kept xs qs s₀ (s, none) → ∀ w, MemoPure z w → Alike A w.settings → (runE R (runCall R n) s.fns s.fr e w).1 = .ok o ∧
    (runE R (runCall R n) s.fns s.fr e w).2.outs = w.outs

theorem Stays.holds {s : State} (h : Stays z x o xs qs s₀ s) (hv : Keeps R n z A e o xs qs s₀) : Holds R n z A x e o s :=
  ⟨h.own, h.var, h.tidy, h.replay, hv s h.kept⟩

theorem replace_loop {f f' : State → ℤ → M (State × Option Obj)} (h : ∀ s k, Stays z x o xs qs s₀ s → Matches z A (f s k) (f' s k) ∧
      Leads (fun r : State × Option Obj => Stays z x o xs qs s₀ r.1 ∧ r.2 = none) (f s k)) (ns : List ℤ) :
    ∀ s, Stays z x o xs qs s₀ s → Matches z A (runLoop f ns s) (runLoop f' ns s) := by
  induction ns with
  | nil => exact fun s _ => Matches.pure _
  | cons k ns ih =>
    intro s hs
    rw [runLoop, runLoop]
    refine (h s k hs).1.bindTo (h s k hs).2 fun r hr => ?_
    obtain ⟨t, v⟩ := r
    obtain ⟨hr, rfl⟩ := hr
    exact ih t hr

mutual

theorem replace_S (hv : Keeps R n z A e o xs qs s₀) (st : Stmt) (hr : noResultS st = true) (hk : setsOnlyS (fun _ => false) st = true)
    (hm : May x xs qs (assignsS st) (definesS st)) {s : State} (h : Stays z x o xs qs s₀ s) :
    Matches z A (runS R (runCall R n) st s) (runS R (runCall R n) (replaceS x e st) s) := by
  match st with
  | .output a =>
    rw [replaceS, runS, runS]
    exact (replace_E (h.holds hv) a).bind fun v => (Matches.quiet (Replays.emitOutput _ _) (KeepsSettings.emitOutput _ _)).bind fun _ => Matches.pure _
  | .outputNamed a t =>
    rw [replaceS, runS, runS]
    exact (replace_E (h.holds hv) a).bind fun v => (Matches.quiet (Replays.textOf _ _ _) (KeepsSettings.textOf _ _ _)).bind fun t =>
      (Matches.quiet (Replays.emitOutput _ _) (KeepsSettings.emitOutput _ _)).bind fun _ => Matches.pure _
  | .set _ _ =>
    rw [setsOnlyS] at hk
    cases hk
  | .function d body =>
    rw [replaceS, runS]
    exact Matches.pure _
  | .result a =>
    rw [noResultS] at hr
    cases hr
  | .cond c b r =>
    rw [replaceS, runS, runS]
    rw [setsOnlyS, Bool.and_eq_true] at hk
    rw [noResultS, Bool.and_eq_true] at hr
    rw [assignsS, definesS] at hm
    refine (replace_E (h.holds hv) c).bind fun v => (Matches.quiet (Replays.truthOp _) (KeepsSettings.truthOp _)).bind fun t => ?_
    cases t with
    | true => exact replace_B hv b hr.1 hk.1 hm.left h
    | false => exact replace_alt hv r hr.2 hk.2 hm.right h
  | .loop y a b =>
    rw [replaceS, runS, runS]
    rw [setsOnlyS] at hk
    rw [noResultS] at hr
    rw [assignsS, definesS] at hm
    have hy : y ≠ x := fun h => hm.var (by rw [h]; exact List.mem_cons_self ..)
    have hyx : y ∈ xs := hm.vars y (List.mem_cons_self ..)
    have hb : May x xs qs (assignsB b) (definesB b) := ⟨fun h => hm.var (List.mem_cons_of_mem _ h), fun y hy => hm.vars y (List.mem_cons_of_mem _ hy), hm.fns⟩
    exact (replace_E (h.holds hv) a).bind fun v => (Matches.quiet (Replays.iterOp _) (KeepsSettings.iterOp _)).bind fun ns =>
      replace_loop (fun s k hs => ⟨replace_B hv b hr hk hb (hs.set hy hyx (.num k)), stays_B b hr hk hb (hs.set hy hyx (.num k))⟩) ns s h
  | .assign y a =>
    rw [replaceS, runS, runS]
    exact (replace_E (h.holds hv) a).bind fun v => Matches.pure _

theorem replace_B (hv : Keeps R n z A e o xs qs s₀) (b : Block) (hr : noResultB b = true) (hk : setsOnlyB (fun _ => false) b = true)
    (hm : May x xs qs (assignsB b) (definesB b)) {s : State} (h : Stays z x o xs qs s₀ s) :
    Matches z A (runB R (runCall R n) b s) (runB R (runCall R n) (replaceB x e b) s) := by
  match b with
  | .nil =>
    rw [replaceB, runB]
    exact Matches.pure _
  | .cons st b =>
    rw [replaceB, runB, runB]
    rw [setsOnlyB, Bool.and_eq_true] at hk
    rw [noResultB, Bool.and_eq_true] at hr
    rw [assignsB, definesB] at hm
    refine (replace_S hv st hr.1 hk.1 hm.left h).bindTo (stays_S st hr.1 hk.1 hm.left h) fun r hs => ?_
    obtain ⟨t, v⟩ := r
    obtain ⟨hs, rfl⟩ := hs
    exact replace_B hv b hr.2 hk.2 hm.right hs

theorem replace_alt (hv : Keeps R n z A e o xs qs s₀) (r : Else) (hr : noResultE r = true) (hk : setsOnlyE (fun _ => false) r = true)
    (hm : May x xs qs (assignsE r) (definesAlt r)) {s : State} (h : Stays z x o xs qs s₀ s) :
    Matches z A (runElse R (runCall R n) r s) (runElse R (runCall R n) (replaceAlt x e r) s) := by
  match r with
  | .done =>
    rw [replaceAlt, runElse]
    exact Matches.pure _
  | .else_ b =>
    rw [replaceAlt, runElse, runElse]
    rw [setsOnlyE] at hk
    rw [noResultE] at hr
    rw [assignsE, definesAlt] at hm
    exact replace_B hv b hr hk hm h
  | .elif c b r =>
    rw [replaceAlt, runElse, runElse]
    rw [setsOnlyE, Bool.and_eq_true] at hk
    rw [noResultE, Bool.and_eq_true] at hr
    rw [assignsE, definesAlt] at hm
    refine (replace_E (h.holds hv) c).bind fun v => (Matches.quiet (Replays.truthOp _) (KeepsSettings.truthOp _)).bind fun t => ?_
    cases t with
    | true => exact replace_B hv b hr.1 hk.1 hm.left h
    | false => exact replace_alt hv r hr.2 hk.2 hm.right h

end

end

/-- An expression whose value the rest does not change keeps its value. -/
theorem keeps_unneeded {R : Rules} {n : ℕ} {z : Bool} {a m : Block} {e : Expr} {o : Obj} {s : State} {v : World}
    (hu : Unneeded a m (.cons (.output e) .nil)) (hs : Fit z (functionsB a) s) (hw : MemoPure z v) (h1 : (runE R (runCall R n) s.fns s.fr e v).1 = .ok o)
    (h2 : (runE R (runCall R n) s.fns s.fr e v).2.outs = v.outs) : Keeps R n z v.settings e o (assignsB m) (definesB m) s := by
  intro t hk w hm hA
  have ho : t.fr.own = none := hk.own.trans hs.own
  have hnear : Near R none (fun x => x ∉ assignsB m) (fun x => x ∉ assignsB m) s.fr t.fr := by
    refine ⟨fun _ => rfl, hs.own, ho, fun _ h => h, fun x hx => ?_, fun x hx => ?_⟩
    · have := hk.env x hx
      rw [Frame.find, Frame.find, ho, hs.own]
      exact this
    · have := hk.env x hx
      rw [Frame.program, Frame.program, ho, hs.own]
      exact this
  have hfns : NearFns (fun x => x ∉ assignsB m) (fun q => q ∉ definesB m) s.fns t.fns := by
    refine fun q hq => ⟨hk.fns q hq, fun d body e => ?_⟩
    obtain ⟨g0, g⟩ := hs.fns _ (lookup_entry_mem e) d body rfl
    obtain ⟨g1, g2, g3⟩ := hu.1 _ g
    exact ⟨g0, g1, g2, g3⟩
  rw [near_E (callNear R n) hnear hfns e (fun x hx => hu.2.1 x (by simp [readsB, readsS, hx])) fun q hq => hu.2.2 q (by simp [callsB, callsS, hq])]
  have ho := onward_E (R := R) (onward_call (R := R) n) hs.onward s.fr e
  obtain ⟨h3, h4⟩ := replays_E (R := R) (replays_call (R := R) n) hs.replay s.fr e v.bare w.bare [] ⟨hA, rfl, hw, hm⟩
  rw [onward_bare ho v] at h1 h2
  rw [onward_bare ho w]
  refine ⟨h3.trans h1, ?_⟩
  have e1 : (runE R (runCall R n) s.fns s.fr e v.bare).2.outs = [] := List.append_right_eq_self.1 h2
  have e2 := h4.outs
  rw [e1, List.nil_append] at e2
  change w.outs ++ _ = w.outs
  rw [e2, List.append_nil]

/-- The expression in the place of the variable. -/
theorem replace_run {R : Rules} {n : ℕ} {z : Bool} {a b c : Block} {x : List Char} {e : Expr} (hra : noResultB a = true) (hrb : noResultB b = true)
    (hq : QuietFunctions a) (ha : LeavesZeros a) (hb : SetsNothing b) (hc : LeavesZeros c) (hx : x ∉ assignsB b)
    (hu : Unneeded a (.cons (.assign x e) b) (.cons (.output e) .nil)) {w : World} (hw : MemoPure z w)
    (hs : ∀ o o', (run R n a w).1 = .ok o → (run R n (follow a (.cons (.assign x e) .nil)) w).1 = .ok o' → o' = o) :
    (run R n (follow a (.cons (.assign x e) (follow b c))) w).1 = (run R n (follow a (.cons (.assign x e) (follow (replaceB x e b) c))) w).1 := by
  rcases h1 : runB R (runCall R n) a (begin_ R) w.bare with ⟨f | ⟨s, r⟩, v⟩
  · have := run_result_outs h1
    rw [follow_fails this, follow_fails this]
  have hn := (kept_B (R := R) (call := runCall R n) a (begin_ R) hra w.bare (s, r) (by rw [h1])).none
  dsimp only at hn
  subst hn
  have hwb : MemoPure z w.bare := hw
  have hs0 : Fit z (functionsB a) s := fit_after hra ha hq (fun _ h => h) (fit_begin R z _) w.bare (s, none) (by rw [h1])
  have hv : MemoPure z v := by
    have := ((replays_B (R := R) (replays_call (R := R) n) a ha _ (fit_begin R z []).replay).1 w.bare w.bare [] ⟨Alike.refl _, rfl, hwb, hwb⟩).2.left
    rwa [h1] at this
  have step : ∀ d, runB R (runCall R n) (.cons (.assign x e) d) s v = (match runE R (runCall R n) s.fns s.fr e v with
      | (.error f, u) => (.error f, u)
      | (.ok o, u) => runB R (runCall R n) d ⟨s.fns, s.fr.set x o⟩ u) := by
    intro d
    rw [runB, runS, bind_assoc, M.bind_apply]
    rcases runE R (runCall R n) s.fns s.fr e v with ⟨f | o, u⟩ <;> rfl
  rcases h2 : runE R (runCall R n) s.fns s.fr e v with ⟨f | o, u⟩
  · have hd : ∀ d, (run R n (follow a (.cons (.assign x e) d)) w).1 = .error f := fun d => by
      rw [run_result_outs (x := .error f) (v := u) (by rw [runB_after h1, step, h2])]
      rfl
    rw [hd, hd]
  have hout : u.outs = v.outs := by
    refine hs v.outs u.outs (by rw [run_result_outs h1]; rfl) ?_
    rw [run_result_outs (x := .ok (⟨s.fns, s.fr.set x o⟩, none)) (v := u) (by rw [runB_after h1, step, h2]; rfl)]
    rfl
  have hk := keeps_unneeded (R := R) (n := n) hu hs0 hv (o := o) (by rw [h2]) (by rw [h2]; exact hout)
  have hA : Alike v.settings u.settings := by
    have := tidy_E (tidy_call (R := R) n) hs0.tidy s.fr e v o (by rw [h2])
    rwa [h2] at this
  have hMu : MemoPure z u := by
    have := (replays_E (R := R) (replays_call (R := R) n) hs0.replay s.fr e v v [] ⟨Alike.refl _, rfl, hv, hv⟩).2.left
    rwa [h2] at this
  have hass : assignsB (.cons (.assign x e) b) = x :: assignsB b := by simp [assignsB, assignsS]
  have hdef : definesB (.cons (.assign x e) b) = definesB b := by simp [definesB, definesS]
  rw [hass, hdef] at hk
  have hm : May x (x :: assignsB b) (definesB b) (assignsB b) (definesB b) := ⟨hx, fun _ h => List.mem_cons_of_mem _ h, fun _ h => h⟩
  have hst : Stays z x o (x :: assignsB b) (definesB b) s ⟨s.fns, s.fr.set x o⟩ :=
    ⟨(Kept.set s x o).mono (fun y hy => List.mem_singleton.1 hy ▸ List.mem_cons_self) (fun _ h => absurd h List.not_mem_nil), hs0.own,
      lookup_cons_eq x o s.fr.env, hs0.tidy, hs0.replay⟩
  obtain ⟨g1, g2, _⟩ := replace_B hk b hrb hb hm hst u u ⟨Alike.refl _, rfl, hMu, hMu⟩ hA
  have hleads := stays_B (R := R) (n := n) b hrb hb hm hst u
  have run1 : ∀ d, (run R n (follow a (.cons (.assign x e) (follow d c))) w).1 = (runB R (runCall R n) (follow d c) ⟨s.fns, s.fr.set x o⟩ u).1.map
      fun _ => (runB R (runCall R n) (follow d c) ⟨s.fns, s.fr.set x o⟩ u).2.outs := fun d => by
    rw [run_result_outs (x := (runB R (runCall R n) (follow d c) ⟨s.fns, s.fr.set x o⟩ u).1)
      (v := (runB R (runCall R n) (follow d c) ⟨s.fns, s.fr.set x o⟩ u).2) (by rw [runB_after h1, step, h2])]
  rw [run1, run1]
  rcases h3 : runB R (runCall R n) b ⟨s.fns, s.fr.set x o⟩ u with ⟨r, u1⟩
  rcases h4 : runB R (runCall R n) (replaceB x e b) ⟨s.fns, s.fr.set x o⟩ u with ⟨r', u2⟩
  rw [h3, h4] at g1 g2
  rw [h3] at hleads
  dsimp only at g1 g2
  subst g1
  rcases r' with f | ⟨t, y⟩
  · rw [runB_follow, M.bind_apply, runB_follow, M.bind_apply, h3, h4]
    rfl
  · obtain ⟨ht, hy⟩ := hleads _ rfl
    dsimp only at ht hy
    subst hy
    rw [runB_after h3, runB_after h4]
    obtain ⟨i1, i2⟩ := (replays_B (R := R) (replays_call (R := R) n) c hc t ht.replay).1 u1 u2 [] g2
    rw [i1, i2.outs, List.nil_append]

end PythonDice
