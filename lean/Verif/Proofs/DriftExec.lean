import Verif.Proofs.Drift
import Verif.Proofs.SoundRun

/-!
# How Python programs change the state
-/

set_option linter.unusedVariables false

namespace PythonDice
open Exec Spec.Py

/-- A computation that changes states in a certain way and, if it returns, returns something of a certain kind. -/
def Goes (ρ : World → World → Prop) {α : Type} (P : α → Prop) (m : M α) : Prop := Drifts ρ m ∧ ∀ w x, (m w).1 = .ok x → P x

namespace Goes
variable {α β : Type} {ρ : World → World → Prop} [Course ρ] {P : α → Prop} {Q : β → Prop}

theorem pure {x : α} (h : P x) : Goes ρ P (Pure.pure x : M α) := ⟨Drifts.pure x, fun _ _ e => by cases e; exact h⟩

theorem throw (e : Err) : Goes ρ P (M.throw e : M α) := ⟨Drifts.throw e, fun _ _ e => by cases e⟩

theorem of {m : M α} (h : Drifts ρ m) : Goes ρ (fun _ => True) m := ⟨h, fun _ _ _ => trivial⟩

theorem bind {m : M α} {f : α → M β} (hm : Goes ρ P m) (hf : ∀ x, P x → Goes ρ Q (f x)) : Goes ρ Q (m >>= f) := by
  constructor
  · intro w
    have h1 := hm.1 w
    have h2 := hm.2 w
    rw [M.bind_apply]
    revert h1 h2
    rcases m w with ⟨r | r, v⟩ <;> intro h1 h2
    · exact h1
    · exact Course.trans h1 ((hf r (h2 r rfl)).1 v)
  · intro w x hx
    have h2 := hm.2 w
    rw [M.bind_apply] at hx
    revert hx h2
    rcases m w with ⟨r | r, v⟩ <;> intro hx h2
    · cases hx
    · exact (hf r (h2 r rfl)).2 v x hx

theorem map {m : M α} {f : α → β} (hm : Goes ρ P m) (hf : ∀ x, P x → Q (f x)) : Goes ρ Q (f <$> m) := by
  have e : f <$> m = m >>= fun x => Pure.pure (f x) := rfl
  rw [e]
  exact hm.bind fun x hx => pure (hf x hx)

theorem lift {r : Except Err α} (h : ∀ x, r = .ok x → P x) : Goes ρ P (Exec.lift r) := ⟨fun w => Course.refl w, fun _ x hx => h x hx⟩

end Goes

/-- Functions of the library. -/
def GoesLib (ρ : World → World → Prop) : Lib → Prop
  | .exact _ f => ∀ os, Drifts ρ (f os)
  | .atLeast _ f => ∀ os, Drifts ρ (f os)
  | _ => True

/-- Values of Python. -/
def GoesVal (ρ : World → World → Prop) : Val → Prop
  | .lib f => GoesLib ρ f
  | _ => True

/-- Variables. -/
def GoesEnv (ρ : World → World → Prop) (g : Env) : Prop := ∀ x ∈ g, GoesVal ρ x.2

/-- The variables in sight. -/
def GoesScope (ρ : World → World → Prop) (σ : Scope) : Prop := GoesEnv ρ σ.globals ∧ ∀ l, σ.locals = some l → GoesEnv ρ l.2

/-- Calls. -/
def GoesCaller (ρ : World → World → Prop) (call : Caller) : Prop :=
  ∀ g f args, GoesEnv ρ g → (∀ v ∈ args, GoesVal ρ v) → Goes ρ (GoesVal ρ) (call g f args)

/-- What there is after a statement. -/
def GoesRes (ρ : World → World → Prop) (r : Scope × Option Val) : Prop := GoesScope ρ r.1 ∧ ∀ v, r.2 = some v → GoesVal ρ v

section
variable {ρ : World → World → Prop} [Course ρ]

omit [Course ρ] in
theorem GoesScope.set {σ : Scope} (h : GoesScope ρ σ) (x : Text) {v : Val} (hv : GoesVal ρ v) : GoesScope ρ (σ.set x v) := by
  unfold Scope.set
  split
  · rename_i l hl
    refine ⟨h.1, fun l' hl' => ?_⟩
    cases hl'
    intro y hy
    rcases List.mem_cons.1 hy with rfl | hy
    · exact hv
    · exact h.2 l hl y hy
  · rename_i hl
    refine ⟨fun y hy => ?_, fun l' hl' => by rw [hl] at hl'; cases hl'⟩
    rcases List.mem_cons.1 hy with rfl | hy
    · exact hv
    · exact h.1 y hy

theorem goes_one {g : Obj → M Obj} (hg : ∀ a, Drifts ρ (g a)) (os : List Obj) : Drifts ρ (app1 g os) := by
  rcases os with _ | ⟨a, _ | ⟨a', os⟩⟩
  · exact Drifts.throw _
  · exact hg a
  · exact Drifts.throw _

theorem goes_two {g : Obj → Obj → M Obj} (hg : ∀ a b, Drifts ρ (g a b)) (os : List Obj) : Drifts ρ (app2 g os) := by
  rcases os with _ | ⟨a, _ | ⟨a', _ | ⟨a2, os⟩⟩⟩
  · exact Drifts.throw _
  · exact Drifts.throw _
  · exact hg a a'
  · exact Drifts.throw _

theorem GoesEnv.find {g : Env} (h : GoesEnv ρ g) {x : Text} {v : Val} (hf : globalFind g x = .ok v) : GoesVal ρ v := by
  unfold globalFind at hf
  split at hf
  · rename_i v' hv
    cases hf
    exact h _ (lookup_pair_mem hv)
  · split at hf
    · cases hf
      exact fun os => goes_one Drifts.lenOp os
    · split at hf <;> cases hf

theorem GoesScope.find {σ : Scope} (h : GoesScope ρ σ) (x : Text) : Goes ρ (GoesVal ρ) (Exec.lift (σ.find x)) := by
  refine Goes.lift fun v hf => ?_
  unfold Scope.find at hf
  split at hf
  · rename_i l hl
    split at hf
    · unfold localFind at hf
      split at hf
      · rename_i v' hv
        cases hf
        exact h.2 l hl _ (lookup_pair_mem hv)
      · cases hf
    · exact h.1.find hf
  · exact h.1.find hf

theorem drifts_dictGet (i : ℕ) (k : Text) : Drifts ρ (dictGet i k) := by
  intro w
  unfold dictGet
  split
  · split <;> exact Course.refl _
  · exact Course.refl _

theorem drifts_dictSet (i : ℕ) (k : Text) (o : Obj) : Drifts ρ (dictSet i k o) := fun w => Course.dicts w _ (by simp)

theorem drifts_dictNew : Drifts ρ dictNew := fun w => Course.dicts w _ (by simp)

theorem drifts_dictCopy (i : ℕ) : Drifts ρ (dictCopy i) := by
  intro w
  unfold dictCopy
  split
  · exact Course.dicts w _ (by simp)
  · exact Course.refl _

theorem Goes.obj {m : M Obj} (h : Drifts ρ m) : Goes ρ (GoesVal ρ) (Val.obj <$> m) := (Goes.of h).map fun _ _ => trivial

theorem goes_callLib {f : Lib} (hf : GoesLib ρ f) (args : List Val) : Goes ρ (GoesVal ρ) (callLib f args) := by
  unfold callLib
  split
  · exact (Goes.of (Drifts.emitOutput _ _)).bind fun _ _ => Goes.pure trivial
  · exact (Goes.of (Drifts.settingsSetObj _ _)).bind fun _ _ => Goes.pure trivial
  · exact (Goes.of (Drifts.settingsSetStr _ _)).bind fun _ _ => Goes.pure trivial
  · exact Goes.pure trivial
  · exact Goes.obj (Drifts.roll1 _)
  · exact Goes.obj (Drifts.roll _ _)
  · split
    · exact Goes.throw _
    · split
      · exact Goes.obj (hf _)
      · exact Goes.throw _
  · split
    · exact Goes.throw _
    · split
      · exact Goes.obj (hf _)
      · exact Goes.throw _
  · exact Goes.throw _

theorem goes_apply {call : Caller} (hc : GoesCaller ρ call) {g : Env} (hg : GoesEnv ρ g) {f : Val} (hf : GoesVal ρ f) {args : List Val}
    (ha : ∀ v ∈ args, GoesVal ρ v) : Goes ρ (GoesVal ρ) (applyVal call g f args) := by
  unfold applyVal
  split
  · exact goes_callLib hf args
  · exact hc g _ args hg ha
  · exact Goes.throw _
  · exact Goes.throw _

theorem drifts_pyOp {op : Text} {f : Obj → Obj → M Obj} (h : pyOp op = some f) (x y : Obj) : Drifts ρ (f x y) := by
  have cut : ∀ {c : Prop} [Decidable c] {g : Obj → Obj → M Obj} {r : Option (Obj → Obj → M Obj)}, Drifts ρ (g x y) →
      (r = some f → Drifts ρ (f x y)) → (if c then some g else r) = some f → Drifts ρ (f x y) := by
    intro c _ g r hg hr h
    by_cases hc : c
    · rw [if_pos hc] at h
      cases h
      exact hg
    · rw [if_neg hc] at h
      exact hr h
  have bin : ∀ op : BinOp, Drifts ρ (binop op x y) := fun op => Drifts.binop op x y
  exact cut (bin _) (cut (bin _) (cut (bin _) (cut (bin _) (cut (bin _) (cut (bin _) (cut (Drifts.matmul _ _) (cut (bin _) (cut (bin _)
    (cut (bin _) (cut (bin _) (cut (bin _) (cut (bin _) (cut (bin _) (cut (bin _) fun h => by cases h)))))))))))))) h

theorem goes_bin (op : Text) (x y : Val) : Goes ρ (GoesVal ρ) (binVal op x y) := by
  unfold binVal
  split
  · rename_i f _ _ h
    exact Goes.obj (drifts_pyOp h _ _)
  · exact Goes.throw _

theorem goes_unary (op : Text) (x : Val) : Goes ρ (GoesVal ρ) (unaryVal op x) := by
  unfold unaryVal
  split
  · split
    · exact Goes.obj (Drifts.negOp _)
    split
    · exact Goes.obj (Drifts.posOp _)
    split
    · exact Goes.obj (Drifts.invertOp _)
    · exact Goes.throw _
  · exact Goes.throw _

theorem drifts_truth (v : Val) : Drifts ρ (truthVal v) := by
  unfold truthVal
  split
  · exact Drifts.truthOp _
  · exact Drifts.throw _

theorem drifts_iter (v : Val) : Drifts ρ (iterVal v) := by
  unfold iterVal
  split
  · exact Drifts.iterOp _
  · exact Drifts.throw _

theorem drifts_asObj (v : Val) : Drifts ρ (asObj v) := by
  unfold asObj
  split
  · exact Drifts.pure _
  · exact Drifts.throw _

theorem drifts_asDict (v : Val) : Drifts ρ (asDict v) := by
  unfold asDict
  split
  · exact Drifts.pure _
  · exact Drifts.throw _

theorem goes_list (vs : List Val) : Goes ρ (GoesVal ρ) (listVal vs) := by
  unfold listVal
  split
  · exact Goes.pure trivial
  · exact Goes.throw _

theorem goes_index (x i : Val) : Goes ρ (GoesVal ρ) (indexVal x i) := by
  unfold indexVal
  split
  · split
    · exact Goes.obj (drifts_dictGet _ _)
    · exact Goes.throw _
  · exact Goes.throw _

theorem drifts_find (σ : Scope) (x : Text) : Drifts ρ (Exec.lift (σ.find x)) := fun w => Course.refl w

theorem drifts_field (σ : Scope) (e : Text) : Drifts ρ (fieldVal σ e) := by
  unfold fieldVal
  split
  · exact (drifts_find σ _).bind fun v => (drifts_asDict v).bind fun i => drifts_dictGet _ _
  · exact (drifts_find σ _).bind fun v => drifts_asObj v

theorem drifts_fstr (σ : Scope) (ps : List FPiece) : Drifts ρ (fstrVal σ ps) := by
  induction ps with
  | nil => exact Drifts.pure _
  | cons p ps ih =>
    cases p with
    | char c => exact ih.bind fun _ => Drifts.pure _
    | field e => exact (drifts_field σ e).bind fun _ => ih.bind fun _ => Drifts.pure _

/-- A comparison to be continued. -/
def GoesCmp (ρ : World → World → Prop) (p : Val × Option Val) : Prop := GoesVal ρ p.1 ∧ ∀ v, p.2 = some v → GoesVal ρ v

mutual

theorem goes_evalE {call : Caller} (hc : GoesCaller ρ call) {σ : Scope} (hs : GoesScope ρ σ) (e : Expr) :
    Goes ρ (GoesVal ρ) (evalE call σ e) := by
  match e with
  | .name x =>
    rw [evalE]
    exact hs.find x
  | .int s => exact Goes.pure trivial
  | .float _ _ => exact Goes.throw _
  | .fstr ps =>
    rw [evalE]
    exact (Goes.of (drifts_fstr σ ps)).map fun _ _ => trivial
  | .str s => exact Goes.pure trivial
  | .bin op l r =>
    rw [evalE]
    exact (goes_evalE hc hs l).bind fun x _ => (goes_evalE hc hs r).bind fun y _ => goes_bin op x y
  | .cmp false op l r =>
    rw [evalE]
    exact (goes_evalE hc hs l).bind fun x _ => (goes_evalE hc hs r).bind fun y _ => goes_bin op x y
  | .cmp true op l r =>
    rw [evalE]
    refine (goes_evalCmp hc hs l).bind fun p hp => ?_
    obtain ⟨v, o⟩ := p
    cases o with
    | none => exact Goes.pure hp.1
    | some y =>
      refine (Goes.of (drifts_truth _)).bind fun t _ => ?_
      cases t with
      | true => exact (goes_evalE hc hs r).bind fun z _ => goes_bin op y z
      | false => exact Goes.pure hp.1
  | .unary op e =>
    rw [evalE]
    exact (goes_evalE hc hs e).bind fun x _ => goes_unary op x
  | .call f args =>
    rw [evalE]
    exact (goes_evalE hc hs f).bind fun x hx => (goes_evalArgs hc hs args).bind fun vs hvs => goes_apply hc hs.1 hx hvs
  | .index e i =>
    rw [evalE]
    exact (goes_evalE hc hs e).bind fun x _ => (goes_evalE hc hs i).bind fun y _ => goes_index x y
  | .list args =>
    rw [evalE]
    exact (goes_evalArgs hc hs args).bind fun vs _ => goes_list vs

theorem goes_evalCmp {call : Caller} (hc : GoesCaller ρ call) {σ : Scope} (hs : GoesScope ρ σ) (e : Expr) :
    Goes ρ (GoesCmp ρ) (evalCmp call σ e) := by
  match e with
  | .cmp false op l r =>
    rw [evalCmp]
    exact (goes_evalE hc hs l).bind fun x _ => (goes_evalE hc hs r).bind fun y hy => (goes_bin op x y).bind fun v hv =>
      Goes.pure ⟨hv, fun _ e => by cases e; exact hy⟩
  | .cmp true op l r =>
    rw [evalCmp]
    refine (goes_evalCmp hc hs l).bind fun p hp => ?_
    obtain ⟨v, o⟩ := p
    cases o with
    | none => exact Goes.pure hp
    | some y =>
      refine (Goes.of (drifts_truth _)).bind fun t _ => ?_
      cases t with
      | true => exact (goes_evalE hc hs r).bind fun z hz => (goes_bin op y z).bind fun v hv => Goes.pure ⟨hv, fun _ e => by cases e; exact hz⟩
      | false => exact Goes.pure ⟨hp.1, fun _ e => by cases e⟩
  | .name _ => exact Goes.throw _
  | .int _ => exact Goes.throw _
  | .float _ _ => exact Goes.throw _
  | .fstr _ => exact Goes.throw _
  | .str _ => exact Goes.throw _
  | .bin _ _ _ => exact Goes.throw _
  | .unary _ _ => exact Goes.throw _
  | .call _ _ => exact Goes.throw _
  | .index _ _ => exact Goes.throw _
  | .list _ => exact Goes.throw _

theorem goes_evalArgs {call : Caller} (hc : GoesCaller ρ call) {σ : Scope} (hs : GoesScope ρ σ) (as : Args) :
    Goes ρ (fun vs : List Val => ∀ v ∈ vs, GoesVal ρ v) (evalArgs call σ as) := by
  match as with
  | .nil => exact Goes.pure fun v hv => by cases hv
  | .cons e as =>
    rw [evalArgs]
    refine (goes_evalE hc hs e).bind fun x hx => (goes_evalArgs hc hs as).bind fun ys hys => Goes.pure fun v hv => ?_
    rcases List.mem_cons.1 hv with rfl | hv
    · exact hx
    · exact hys v hv

end

theorem drifts_annotation (σ : Scope) (t : Option Text) : Drifts ρ (annotation σ t) := by
  cases t with
  | none => exact Drifts.pure _
  | some t =>
    refine (drifts_find σ t).bind fun v => ?_
    split <;> first | exact Drifts.pure _ | exact Drifts.throw _

theorem drifts_annotations (σ : Scope) (ps : List (Text × Option Text)) : Drifts ρ (annotations σ ps) := by
  induction ps with
  | nil => exact Drifts.pure _
  | cons p ps ih => exact (drifts_annotation σ p.2).bind fun _ => ih.bind fun _ => Drifts.pure _

theorem goes_forLoop {f : Scope → ℤ → M (Scope × Option Val)} (h : ∀ σ n, GoesScope ρ σ → Goes ρ (GoesRes ρ) (f σ n)) (ns : List ℤ) :
    ∀ σ, GoesScope ρ σ → Goes ρ (GoesRes ρ) (forLoop f ns σ) := by
  induction ns with
  | nil => exact fun σ hs => Goes.pure ⟨hs, fun _ e => by cases e⟩
  | cons n ns ih =>
    intro σ hs
    rw [forLoop]
    refine (h σ n hs).bind fun r hr => ?_
    obtain ⟨σ1, o⟩ := r
    cases o with
    | some v => exact Goes.pure hr
    | none => exact ih σ1 hr.1

theorem drifts_callKw (f a : Val) (k : Text) (v : Val) : Drifts ρ (callKw f a k v) := by
  unfold callKw
  split
  · split
    · exact Drifts.emitOutput _ _
    · exact Drifts.throw _
  · exact Drifts.throw _

theorem goes_def {σ : Scope} (hs : GoesScope ρ σ) (deco : Bool) (f : Text) (ps : List (Text × Option Text)) (body : Block) :
    Goes ρ (GoesScope ρ) (defStmt σ deco f ps body) := by
  unfold defStmt
  split
  · refine (hs.find _).bind fun v _ => (Goes.of (drifts_annotations σ ps)).bind fun qs _ => ?_
    split
    · exact Goes.pure (hs.set f trivial)
    · exact Goes.throw _
  · exact Goes.throw _

mutual

theorem goes_execS {call : Caller} (hc : GoesCaller ρ call) (s : Stmt) (σ : Scope) (hs : GoesScope ρ σ) : Goes ρ (GoesRes ρ) (execS call s σ) := by
  have stay : GoesRes ρ (σ, none) := ⟨hs, fun _ e => by cases e⟩
  match s with
  | .expr e =>
    rw [execS]
    exact (goes_evalE hc hs e).bind fun _ _ => Goes.pure stay
  | .exprKw f e k v =>
    rw [execS]
    exact (hs.find f).bind fun g _ => (goes_evalE hc hs e).bind fun x _ => (goes_evalE hc hs v).bind fun y _ =>
      (Goes.of (drifts_callKw g x k y)).bind fun _ _ => Goes.pure stay
  | .assign x e =>
    rw [execS]
    exact (goes_evalE hc hs e).bind fun v hv => Goes.pure ⟨hs.set x hv, fun _ e => by cases e⟩
  | .setItem d k e =>
    rw [execS]
    exact (goes_evalE hc hs e).bind fun v _ => (Goes.of (drifts_asObj v)).bind fun o _ => (hs.find d).bind fun dv _ =>
      (Goes.of (drifts_asDict dv)).bind fun i _ => (Goes.of (drifts_dictSet i k o)).bind fun _ _ => Goes.pure stay
  | .newDict d =>
    rw [execS]
    exact (Goes.of drifts_dictNew).bind fun i _ => Goes.pure ⟨hs.set d trivial, fun _ e => by cases e⟩
  | .copyDict d =>
    rw [execS]
    exact (hs.find d).bind fun v _ => (Goes.of (drifts_asDict v)).bind fun i _ => (Goes.of (drifts_dictCopy i)).bind fun j _ =>
      Goes.pure ⟨hs.set d trivial, fun _ e => by cases e⟩
  | .ret e =>
    rw [execS]
    exact (goes_evalE hc hs e).bind fun v hv => Goes.pure ⟨hs, fun _ e => by cases e; exact hv⟩
  | .pass =>
    rw [execS]
    exact Goes.pure stay
  | .cond x bl r =>
    rw [execS]
    refine (goes_evalE hc hs x).bind fun v _ => (Goes.of (drifts_truth v)).bind fun t _ => ?_
    cases t with
    | true => exact goes_execB hc bl σ hs
    | false => exact goes_execElse hc r σ hs
  | .for_ x e bl =>
    rw [execS]
    refine (goes_evalE hc hs e).bind fun v _ => (Goes.of (drifts_iter v)).bind fun ns _ => ?_
    exact goes_forLoop (fun σ' n hs' => goes_execB hc bl _ (hs'.set x (v := .obj (.num n)) trivial)) ns σ hs
  | .def_ deco f ps bl =>
    rw [execS]
    exact (goes_def hs deco f ps bl).bind fun σ' hs' => Goes.pure ⟨hs', fun _ e => by cases e⟩

theorem goes_execB {call : Caller} (hc : GoesCaller ρ call) (bl : Block) (σ : Scope) (hs : GoesScope ρ σ) : Goes ρ (GoesRes ρ) (execB call bl σ) := by
  match bl with
  | .nil =>
    rw [execB]
    exact Goes.pure ⟨hs, fun _ e => by cases e⟩
  | .cons s bl =>
    rw [execB]
    refine (goes_execS hc s σ hs).bind fun r hr => ?_
    obtain ⟨σ1, o⟩ := r
    cases o with
    | some v => exact Goes.pure hr
    | none => exact goes_execB hc bl σ1 hr.1

theorem goes_execElse {call : Caller} (hc : GoesCaller ρ call) (r : Else) (σ : Scope) (hs : GoesScope ρ σ) :
    Goes ρ (GoesRes ρ) (execElse call r σ) := by
  match r with
  | .done =>
    rw [execElse]
    exact Goes.pure ⟨hs, fun _ e => by cases e⟩
  | .else_ bl =>
    rw [execElse]
    exact goes_execB hc bl σ hs
  | .elif x bl r =>
    rw [execElse]
    refine (goes_evalE hc hs x).bind fun v _ => (Goes.of (drifts_truth v)).bind fun t _ => ?_
    cases t with
    | true => exact goes_execB hc bl σ hs
    | false => exact goes_execElse hc r σ hs

end

omit [Course ρ] in
theorem goes_split {vs : List Val} (h : ∀ v ∈ vs, GoesVal ρ v) : ∀ v ∈ (splitArgs vs).2, GoesVal ρ v := by
  induction vs with
  | nil => exact fun v hv => by cases hv
  | cons v vs ih =>
    cases v with
    | obj o => exact ih fun v hv => h v (List.mem_cons_of_mem _ hv)
    | _ => exact h

theorem drifts_returned (o : Option Val) : Drifts ρ (returned o) := by
  unfold returned
  split <;> first | exact Drifts.pure _ | exact Drifts.throw _

theorem goes_callF {call : Caller} (hc : GoesCaller ρ call) : GoesCaller ρ (callF call) := by
  intro g f args hg ha
  have h2 := goes_split ha
  unfold callF
  split
  · refine Goes.obj (Drifts.fnCall (fun os => ?_) _)
    unfold runBody
    refine ((goes_execB hc f.body _ ⟨hg, fun l hl => ?_⟩).bind (Q := fun _ => True) fun r _ => Goes.of (drifts_returned _)).1
    cases hl
    intro x hx
    rcases List.mem_append.1 (List.of_mem_zip hx).2 with hv | hv
    · obtain ⟨o, ho, e⟩ := List.mem_map.1 hv
      rw [← e]
      trivial
    · exact h2 _ hv
  · exact Goes.throw _

theorem goes_callU (n : ℕ) : GoesCaller ρ (callU n) := by
  induction n with
  | zero => exact fun _ _ _ _ _ => Goes.throw _
  | succ n ih => exact goes_callF ih

theorem goes_globals : GoesEnv ρ libGlobals := by
  have nil : GoesEnv ρ [] := fun x hx => by cases hx
  have cons : ∀ {x : Text} {v : Val} {g : Env}, GoesVal ρ v → GoesEnv ρ g → GoesEnv ρ ((x, v) :: g) := by
    intro x v g hv hg y hy
    rcases List.mem_cons.1 hy with rfl | hy
    · exact hv
    · exact hg y hy
  unfold libGlobals
  refine cons trivial ?_
  refine cons trivial ?_
  refine cons trivial ?_
  refine cons trivial ?_
  refine cons trivial ?_
  refine cons trivial ?_
  refine cons trivial ?_
  refine cons trivial ?_
  refine cons trivial ?_
  refine cons (goes_two Drifts.myRange) ?_
  refine cons trivial ?_
  refine cons trivial ?_
  refine cons trivial ?_
  refine cons trivial ?_
  refine cons trivial ?_
  refine cons (goes_one Drifts.absolute) ?_
  refine cons (goes_two Drifts.contains) ?_
  refine cons (goes_two Drifts.countIn) ?_
  refine cons (goes_one fun a => Drifts.explode a) ?_
  refine cons (goes_two Drifts.highestN) ?_
  refine cons (goes_two Drifts.lowestN) ?_
  refine cons (goes_two Drifts.middleN) ?_
  refine cons (goes_two Drifts.highestOf) ?_
  refine cons (goes_two Drifts.lowestOf) ?_
  refine cons (goes_one Drifts.maximumOf) ?_
  refine cons (goes_one Drifts.reverse) ?_
  refine cons (goes_one Drifts.sort) ?_
  refine cons (goes_two Drifts.myMatmul) ?_
  refine cons (goes_one fun _ => Drifts.pure _) ?_
  refine cons (goes_one Drifts.myInvert) ?_
  refine cons (goes_two Drifts.myAnd) ?_
  refine cons (goes_two Drifts.myOr) ?_
  refine cons (goes_two Drifts.trueDiv) ?_
  exact nil

/-- The module. -/
theorem drifts_module (n : ℕ) (p : Block) : Drifts ρ (runModule n p) := by
  unfold runModule
  exact ((goes_execB (goes_callU n) p _ ⟨goes_globals, fun l hl => by cases hl⟩).bind (Q := fun _ => True) fun _ _ => Goes.pure trivial).1

end

end PythonDice
