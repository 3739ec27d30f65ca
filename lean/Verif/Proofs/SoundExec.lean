import Verif.Proofs.SoundRun
import Verif.Model.Exec

/-!
# Python programs make dice in lowest terms
-/

set_option linter.unusedVariables false

namespace PythonDice
open Exec Spec.Py

/-- Functions of the library. -/
def SoundLib : Lib → Prop
  | .exact _ f => ∀ b os, SoundObjs b os → Sound b SoundObj (f os)
  | .atLeast _ f => ∀ b os, SoundObjs b os → Sound b SoundObj (f os)
  | _ => True

/-- Values of Python. -/
def SoundVal (b : Bool) : Val → Prop
  | .obj o => SoundObj b o
  | .lib f => SoundLib f
  | _ => True

theorem SoundVal.mono {b c : Bool} (hc : Weaker c b) {v : Val} (h : SoundVal b v) : SoundVal c v := by
  cases v with
  | obj o => exact SoundObj.mono hc h
  | lib f => exact h
  | _ => trivial

/-- Values. -/
def SoundVals (b : Bool) (vs : List Val) : Prop := ∀ v ∈ vs, SoundVal b v

theorem SoundVals.mono {b c : Bool} (hc : Weaker c b) {vs : List Val} (h : SoundVals b vs) : SoundVals c vs := fun v hv => (h v hv).mono hc

/-- Values or nothing. -/
def SoundMaybe (b : Bool) (o : Option Val) : Prop := ∀ v, o = some v → SoundVal b v

theorem SoundMaybe.mono {b c : Bool} (hc : Weaker c b) {o : Option Val} (h : SoundMaybe b o) : SoundMaybe c o := fun v hv => (h v hv).mono hc

/-- Variables. -/
def SoundEnv (b : Bool) (g : Env) : Prop := ∀ x ∈ g, SoundVal b x.2

theorem SoundEnv.mono {b c : Bool} (hc : Weaker c b) {g : Env} (h : SoundEnv b g) : SoundEnv c g := fun x hx => (h x hx).mono hc

/-- The variables in sight. -/
def SoundScope (b : Bool) (σ : Scope) : Prop := SoundEnv b σ.globals ∧ ∀ l, σ.locals = some l → SoundEnv b l.2

theorem SoundScope.mono {b c : Bool} (hc : Weaker c b) {σ : Scope} (h : SoundScope b σ) : SoundScope c σ :=
  ⟨h.1.mono hc, fun l hl => (h.2 l hl).mono hc⟩

theorem SoundScope.set {b : Bool} {σ : Scope} (h : SoundScope b σ) (x : Text) {v : Val} (hv : SoundVal b v) : SoundScope b (σ.set x v) := by
  unfold Scope.set
  split
  · rename_i l hl
    refine ⟨h.1, fun l' hl' => ?_⟩
    cases hl'
    intro y hy
    rcases List.mem_cons.1 hy with rfl | hy
    · exact hv
    · exact h.2 l hl y hy
  · rename_i hl
    refine ⟨fun y hy => ?_, fun l' hl' => by rw [hl] at hl'; cases hl'⟩
    rcases List.mem_cons.1 hy with rfl | hy
    · exact hv
    · exact h.1 y hy

theorem soundLib_len : SoundLib lenFn := by
  intro b os hos
  rcases os with _ | ⟨a, _ | ⟨a', os⟩⟩
  · exact Sound.throw _
  · exact Sound.lenOp _
  · exact Sound.throw _

theorem SoundEnv.find {b : Bool} {g : Env} (h : SoundEnv b g) {x : Text} {v : Val} (hf : globalFind g x = .ok v) : SoundVal b v := by
  unfold globalFind at hf
  split at hf
  · rename_i v' hv
    cases hf
    exact h _ (lookup_pair_mem hv)
  · split at hf
    · cases hf
      exact soundLib_len
    · split at hf <;> cases hf

theorem SoundScope.find {b : Bool} {σ : Scope} (h : SoundScope b σ) {x : Text} {v : Val} (hf : σ.find x = .ok v) : SoundVal b v := by
  unfold Scope.find at hf
  split at hf
  · rename_i l hl
    split at hf
    · unfold localFind at hf
      split at hf
      · rename_i v' hv
        cases hf
        exact h.2 l hl _ (lookup_pair_mem hv)
      · cases hf
    · exact h.1.find hf
  · exact h.1.find hf

/-- Calls. -/
def SoundCaller (call : Caller) : Prop := ∀ b g f args, SoundEnv b g → SoundVals b args → Sound b SoundVal (call g f args)

/-- What there is after a statement. -/
def SoundRes (b : Bool) (r : Scope × Option Val) : Prop := SoundScope b r.1 ∧ SoundMaybe b r.2

theorem SoundRes.mono {b c : Bool} (hc : Weaker c b) {r : Scope × Option Val} (h : SoundRes b r) : SoundRes c r := ⟨h.1.mono hc, h.2.mono hc⟩

namespace Sound
variable {b : Bool}

theorem lift {α : Type} {P : Bool → α → Prop} {r : Except Err α} (h : ∀ x, r = .ok x → ∀ c, Weaker c b → P c x) : Sound b P (Exec.lift r) :=
  keep (fun _ => ⟨rfl, rfl, rfl, rfl⟩) (fun _ x hx => h x hx) fun _ w z => ⟨z, rfl⟩

theorem obj {m : M Obj} (h : Sound b SoundObj m) : Sound b SoundVal (Val.obj <$> m) := map h fun x c hx => hx

theorem find {σ : Scope} (h : SoundScope b σ) (x : Text) : Sound b SoundVal (Exec.lift (σ.find x)) := lift fun v hv c hc => (h.find hv).mono hc

theorem dictGet (i : ℕ) (k : Text) : Sound b SoundObj (Exec.dictGet i k) := by
  intro w hw
  have hw' : ∀ c : Bool, (c = true → b = true ∧ w.warns = w.warns ∧ SoundWorld true w) → SoundWorld c w := by
    intro c hc
    cases c with
    | false => exact hw
    | true => exact (hc rfl).2.2
  have ez : ∀ z, Exec.dictGet i k (w.setZeros z) = ((Exec.dictGet i k w).1, (Exec.dictGet i k w).2.setZeros z) := by
    intro z
    have e : (w.setZeros z).dicts = w.dicts := rfl
    unfold Exec.dictGet
    rw [e]
    cases w.dicts[i]? with
    | none => rfl
    | some d =>
      dsimp only
      cases d.lookup k <;> rfl
  refine ⟨?_, ?_, fun _ _ _ z => ⟨z, ez z⟩⟩
  all_goals
    unfold Exec.dictGet
    cases hd : w.dicts[i]? with
    | none => first | exact le_rfl | exact fun c hc => ⟨hw' c hc, fun x hx => by cases hx⟩
    | some d =>
      dsimp only
      cases hk : d.lookup k with
      | none => first | exact le_rfl | exact fun c hc => ⟨hw' c hc, fun x hx => by cases hx⟩
      | some o =>
        first
          | exact le_rfl
          | exact fun c hc => ⟨hw' c hc, fun x hx => by
              cases hx
              exact (hw' c hc).dicts d (List.mem_of_getElem? hd) _ (lookup_pair_mem hk)⟩

theorem mem_modify {α : Type} {f : α → α} {l : List α} {i : ℕ} {y : α} (h : y ∈ l.modify i f) : y ∈ l ∨ ∃ x ∈ l, y = f x := by
  induction l generalizing i with
  | nil => cases i <;> simp at h
  | cons x l ih =>
    cases i with
    | zero =>
      rw [List.modify_zero_cons] at h
      rcases List.mem_cons.1 h with rfl | h
      · exact .inr ⟨x, List.mem_cons_self, rfl⟩
      · exact .inl (List.mem_cons_of_mem _ h)
    | succ i =>
      rw [List.modify_succ_cons] at h
      rcases List.mem_cons.1 h with rfl | h
      · exact .inl List.mem_cons_self
      · rcases ih h with h | ⟨x', h, e⟩
        · exact .inl (List.mem_cons_of_mem _ h)
        · exact .inr ⟨x', List.mem_cons_of_mem _ h, e⟩

theorem dictSet (i : ℕ) (k : Text) {o : Obj} (ho : SoundObj b o) : Sound b Anyhow (Exec.dictSet i k o) := by
  intro w hw
  refine ⟨le_rfl, (fun c hc => ?_), fun _ _ _ z => ⟨z, rfl⟩⟩
  have hw' : SoundWorld c w := by
    cases c with
    | false => exact hw
    | true => exact (hc rfl).2.2
  refine ⟨⟨hw'.memo, hw'.outs, fun d hd x hx => ?_⟩, fun _ _ => trivial⟩
  rcases mem_modify hd with hd | ⟨d', hd', rfl⟩
  · exact hw'.dicts d hd x hx
  · rcases List.mem_cons.1 hx with rfl | hx
    · exact ho.mono fun e => (hc e).1
    · exact hw'.dicts d' hd' x hx

theorem dictNew : Sound b Anyhow Exec.dictNew := by
  intro w hw
  refine ⟨le_rfl, (fun c hc => ?_), fun _ _ _ z => ⟨z, rfl⟩⟩
  have hw' : SoundWorld c w := by
    cases c with
    | false => exact hw
    | true => exact (hc rfl).2.2
  refine ⟨⟨hw'.memo, hw'.outs, fun d hd x hx => ?_⟩, fun _ _ => trivial⟩
  rcases List.mem_append.1 hd with hd | hd
  · exact hw'.dicts d hd x hx
  · rw [List.mem_singleton.1 hd] at hx
    cases hx

theorem dictCopy (i : ℕ) : Sound b Anyhow (Exec.dictCopy i) := by
  intro w hw
  have hw' : ∀ c : Bool, (c = true → b = true ∧ w.warns = w.warns ∧ SoundWorld true w) → SoundWorld c w := by
    intro c hc
    cases c with
    | false => exact hw
    | true => exact (hc rfl).2.2
  have ez : ∀ z, Exec.dictCopy i (w.setZeros z) = ((Exec.dictCopy i w).1, (Exec.dictCopy i w).2.setZeros z) := by
    intro z
    have e : (w.setZeros z).dicts = w.dicts := rfl
    unfold Exec.dictCopy
    rw [e]
    cases w.dicts[i]? <;> rfl
  refine ⟨?_, ?_, fun _ _ _ z => ⟨z, ez z⟩⟩
  all_goals
    unfold Exec.dictCopy
    cases hd : w.dicts[i]? with
    | none => first | exact le_rfl | exact fun c hc => ⟨hw' c hc, fun x hx => by cases hx⟩
    | some d =>
      first
        | exact le_rfl
        | exact fun c hc => ⟨⟨(hw' c hc).memo, (hw' c hc).outs, fun d' hd' x hx => by
            rcases List.mem_append.1 hd' with hd' | hd'
            · exact (hw' c hc).dicts d' hd' x hx
            · rw [List.mem_singleton.1 hd'] at hx
              exact (hw' c hc).dicts d (List.mem_of_getElem? hd) x hx⟩, fun _ _ => trivial⟩

end Sound

theorem sound_objs {b : Bool} {vs : List Val} (h : SoundVals b vs) {os : List Obj} (ho : objs vs = some os) : SoundObjs b os := by
  induction vs generalizing os with
  | nil =>
    cases ho
    exact fun o ho => by cases ho
  | cons v vs ih =>
    cases v with
    | obj o =>
      rw [objs] at ho
      obtain ⟨os', h1, rfl⟩ := Option.map_eq_some_iff.1 ho
      intro o' ho'
      rcases List.mem_cons.1 ho' with rfl | ho'
      · exact h _ List.mem_cons_self
      · exact ih (fun v hv => h v (List.mem_cons_of_mem _ hv)) h1 o' ho'
    | _ => cases ho

theorem sound_settingsObj {b : Bool} (n : PyText) (o : Obj) : Sound b Anyhow (settingsSetObj n o) := by
  unfold settingsSetObj
  split
  · exact sound_setting _ _
  · exact Sound.throw _

theorem sound_settingsStr {b : Bool} (n t : PyText) : Sound b Anyhow (settingsSetStr n t) := by
  unfold settingsSetStr
  split
  · exact sound_setting _ _
  · exact Sound.throw _

theorem sound_callLib {b : Bool} {f : Lib} (hf : SoundLib f) {args : List Val} (ha : SoundVals b args) : Sound b SoundVal (callLib f args) := by
  unfold callLib
  split
  · exact (Sound.emitOutput (ha (.obj _) List.mem_cons_self) _).bind fun _ _ _ _ => Sound.pure fun _ _ => trivial
  · exact (sound_settingsObj _ _).bind fun _ _ _ _ => Sound.pure fun _ _ => trivial
  · exact (sound_settingsStr _ _).bind fun _ _ _ _ => Sound.pure fun _ _ => trivial
  · exact Sound.pure fun _ _ => trivial
  · exact (Sound.roll1 (ha (.obj _) List.mem_cons_self)).obj
  · exact (Sound.roll (ha (.obj _) List.mem_cons_self) (ha (.obj _) (List.mem_cons_of_mem _ List.mem_cons_self))).obj
  · split
    · exact Sound.throw _
    · split
      · rename_i os hos
        exact (hf b os (sound_objs ha hos)).obj
      · exact Sound.throw _
  · split
    · exact Sound.throw _
    · split
      · rename_i os hos
        exact (hf b os (sound_objs (fun v hv => ha v (List.mem_of_mem_take hv)) hos)).obj
      · exact Sound.throw _
  · exact Sound.throw _

theorem sound_apply {call : Caller} (hc : SoundCaller call) {b : Bool} {g : Env} (hg : SoundEnv b g) {f : Val} (hf : SoundVal b f) {args : List Val}
    (ha : SoundVals b args) : Sound b SoundVal (applyVal call g f args) := by
  unfold applyVal
  split
  · exact sound_callLib hf ha
  · exact hc b g _ args hg ha
  · exact Sound.throw _
  · exact Sound.throw _

theorem sound_pyOp {op : Text} {f : Obj → Obj → M Obj} (h : pyOp op = some f) {b : Bool} {x y : Obj} (hx : SoundObj b x) (hy : SoundObj b y) :
    Sound b SoundObj (f x y) := by
  have cut : ∀ {c : Prop} [Decidable c] {g : Obj → Obj → M Obj} {r : Option (Obj → Obj → M Obj)}, Sound b SoundObj (g x y) →
      (r = some f → Sound b SoundObj (f x y)) → (if c then some g else r) = some f → Sound b SoundObj (f x y) := by
    intro c _ g r hg hr h
    by_cases hc : c
    · rw [if_pos hc] at h
      cases h
      exact hg
    · rw [if_neg hc] at h
      exact hr h
  have bin : ∀ op : BinOp, Sound b SoundObj (binop op x y) := fun op => Sound.binop op hx hy
  exact cut (bin _) (cut (bin _) (cut (bin _) (cut (bin _) (cut (bin _) (cut (bin _) (cut (Sound.matmul _ hy) (cut (bin _) (cut (bin _)
    (cut (bin _) (cut (bin _) (cut (bin _) (cut (bin _) (cut (bin _) (cut (bin _) fun h => by cases h)))))))))))))) h

theorem sound_bin (op : Text) {b : Bool} {x y : Val} (hx : SoundVal b x) (hy : SoundVal b y) : Sound b SoundVal (binVal op x y) := by
  unfold binVal
  split
  · rename_i f _ _ h
    exact (sound_pyOp h hx hy).obj
  · exact Sound.throw _

theorem sound_unary (op : Text) {b : Bool} {x : Val} (hx : SoundVal b x) : Sound b SoundVal (unaryVal op x) := by
  unfold unaryVal
  split
  · split
    · exact (Sound.negOp hx).obj
    split
    · exact (Sound.posOp hx).obj
    split
    · exact (Sound.invertOp _).obj
    · exact Sound.throw _
  · exact Sound.throw _

theorem sound_truth {b : Bool} (v : Val) : Sound b Anyhow (truthVal v) := by
  unfold truthVal
  split
  · exact Sound.truthOp _
  · exact Sound.throw _

theorem sound_iter {b : Bool} (v : Val) : Sound b Anyhow (iterVal v) := by
  unfold iterVal
  split
  · exact Sound.iterOp _
  · exact Sound.throw _

theorem sound_asObj {b : Bool} {v : Val} (h : SoundVal b v) : Sound b SoundObj (asObj v) := by
  unfold asObj
  split
  · exact Sound.pure fun c hc => SoundObj.mono hc h
  · exact Sound.throw _

theorem sound_asDict {b : Bool} (v : Val) : Sound b Anyhow (asDict v) := by
  unfold asDict
  split
  · exact Sound.pure fun _ _ => trivial
  · exact Sound.throw _

theorem sound_list {b : Bool} (vs : List Val) : Sound b SoundVal (listVal vs) := by
  unfold listVal
  split
  · exact Sound.pure fun _ _ => trivial
  · exact Sound.throw _

theorem sound_index {b : Bool} (x i : Val) : Sound b SoundVal (indexVal x i) := by
  unfold indexVal
  split
  · split
    · exact (Sound.dictGet _ _).obj
    · exact Sound.throw _
  · exact Sound.throw _

theorem sound_field {b : Bool} {σ : Scope} (h : SoundScope b σ) (e : Text) : Sound b SoundObj (fieldVal σ e) := by
  unfold fieldVal
  split
  · exact (Sound.find h _).bind fun v c hc hv => (sound_asDict v).bind fun i c' hc' _ => Sound.dictGet _ _
  · exact (Sound.find h _).bind fun v c hc hv => sound_asObj hv

theorem sound_fstr {b : Bool} {σ : Scope} (h : SoundScope b σ) (ps : List FPiece) : Sound b Anyhow (fstrVal σ ps) := by
  induction ps generalizing b with
  | nil => exact Sound.pure fun _ _ => trivial
  | cons p ps ih =>
    cases p with
    | char c => exact (ih h).bind fun _ _ _ _ => Sound.pure fun _ _ => trivial
    | field e => exact (sound_field h e).bind fun _ c hc _ => (ih (h.mono hc)).bind fun _ _ _ _ => Sound.pure fun _ _ => trivial

/-- A comparison to be continued. -/
def SoundCmp (b : Bool) (p : Val × Option Val) : Prop := SoundVal b p.1 ∧ SoundMaybe b p.2

theorem soundMaybe_none {b : Bool} : SoundMaybe b none := fun _ h => by cases h

theorem soundMaybe_some {b : Bool} {v : Val} (h : SoundVal b v) : SoundMaybe b (some v) := fun _ e => by cases e; exact h

mutual

theorem sound_evalE {call : Caller} (hc : SoundCaller call) {b : Bool} {σ : Scope} (hs : SoundScope b σ) (e : Expr) :
    Sound b SoundVal (evalE call σ e) := by
  match e with
  | .name x => exact Sound.find hs x
  | .int s => exact Sound.pure fun _ _ => trivial
  | .float _ _ => exact Sound.throw _
  | .fstr ps =>
    rw [evalE]
    exact Sound.map (P := Anyhow) (sound_fstr hs ps) fun _ _ _ => trivial
  | .str s => exact Sound.pure fun _ _ => trivial
  | .bin op l r =>
    rw [evalE]
    exact (sound_evalE hc hs l).bind fun x c h hx => (sound_evalE hc (hs.mono h) r).bind fun y c' h' hy => sound_bin op (hx.mono h') hy
  | .cmp false op l r =>
    rw [evalE]
    exact (sound_evalE hc hs l).bind fun x c h hx => (sound_evalE hc (hs.mono h) r).bind fun y c' h' hy => sound_bin op (hx.mono h') hy
  | .cmp true op l r =>
    rw [evalE]
    refine (sound_evalCmp hc hs l).bind fun p c h hp => ?_
    obtain ⟨v, o⟩ := p
    cases o with
    | none => exact Sound.pure fun c' h' => hp.1.mono h'
    | some y =>
      refine (sound_truth _).bind fun t c' h' _ => ?_
      cases t with
      | true => exact (sound_evalE hc (hs.mono fun e => h (h' e)) r).bind fun z c2 h2 hz => sound_bin op ((hp.2 y rfl).mono fun e => h' (h2 e)) hz
      | false => exact Sound.pure fun c2 h2 => hp.1.mono fun e => h' (h2 e)
  | .unary op e =>
    rw [evalE]
    exact (sound_evalE hc hs e).bind fun x c h hx => sound_unary op hx
  | .call f args =>
    rw [evalE]
    exact (sound_evalE hc hs f).bind fun x c h hx => (sound_evalArgs hc (hs.mono h) args).bind fun vs c' h' hvs =>
      sound_apply hc (hs.1.mono fun e => h (h' e)) (hx.mono h') hvs
  | .index e i =>
    rw [evalE]
    exact (sound_evalE hc hs e).bind fun x c h hx => (sound_evalE hc (hs.mono h) i).bind fun y c' h' hy => sound_index _ _
  | .list args =>
    rw [evalE]
    exact (sound_evalArgs hc hs args).bind fun vs c h hvs => sound_list vs

theorem sound_evalCmp {call : Caller} (hc : SoundCaller call) {b : Bool} {σ : Scope} (hs : SoundScope b σ) (e : Expr) :
    Sound b SoundCmp (evalCmp call σ e) := by
  match e with
  | .cmp false op l r =>
    rw [evalCmp]
    exact (sound_evalE hc hs l).bind fun x c h hx => (sound_evalE hc (hs.mono h) r).bind fun y c' h' hy => (sound_bin op (hx.mono h') hy).bind
      fun v c2 h2 hv => Sound.pure fun c3 h3 => ⟨hv.mono h3, soundMaybe_some (hy.mono fun e => h2 (h3 e))⟩
  | .cmp true op l r =>
    rw [evalCmp]
    refine (sound_evalCmp hc hs l).bind fun p c h hp => ?_
    obtain ⟨v, o⟩ := p
    cases o with
    | none => exact Sound.pure fun c' h' => ⟨hp.1.mono h', hp.2.mono h'⟩
    | some y =>
      refine (sound_truth _).bind fun t c' h' _ => ?_
      cases t with
      | true =>
        exact (sound_evalE hc (hs.mono fun e => h (h' e)) r).bind fun z c2 h2 hz =>
          (sound_bin op ((hp.2 y rfl).mono fun e => h' (h2 e)) hz).bind fun v c3 h3 hv => Sound.pure fun c4 h4 =>
            ⟨hv.mono h4, soundMaybe_some (hz.mono fun e => h3 (h4 e))⟩
      | false => exact Sound.pure fun c2 h2 => ⟨hp.1.mono fun e => h' (h2 e), soundMaybe_none⟩
  | .name _ => exact Sound.throw _
  | .int _ => exact Sound.throw _
  | .float _ _ => exact Sound.throw _
  | .fstr _ => exact Sound.throw _
  | .str _ => exact Sound.throw _
  | .bin _ _ _ => exact Sound.throw _
  | .unary _ _ => exact Sound.throw _
  | .call _ _ => exact Sound.throw _
  | .index _ _ => exact Sound.throw _
  | .list _ => exact Sound.throw _

theorem sound_evalArgs {call : Caller} (hc : SoundCaller call) {b : Bool} {σ : Scope} (hs : SoundScope b σ) (as : Args) :
    Sound b SoundVals (evalArgs call σ as) := by
  match as with
  | .nil => exact Sound.pure fun _ _ v hv => by cases hv
  | .cons e as =>
    rw [evalArgs]
    refine (sound_evalE hc hs e).bind fun x c h hx => (sound_evalArgs hc (hs.mono h) as).bind fun ys c' h' hys => Sound.pure fun c2 h2 v hv => ?_
    rcases List.mem_cons.1 hv with rfl | hv
    · exact hx.mono fun e => h' (h2 e)
    · exact (hys v hv).mono h2

end

theorem sound_annotation {b : Bool} {σ : Scope} (hs : SoundScope b σ) (t : Option Text) : Sound b Anyhow (annotation σ t) := by
  cases t with
  | none => exact Sound.pure fun _ _ => trivial
  | some t =>
    refine (Sound.find hs t).bind fun v c h hv => ?_
    split <;> first | exact Sound.pure fun _ _ => trivial | exact Sound.throw _

theorem sound_annotations {b : Bool} {σ : Scope} (hs : SoundScope b σ) (ps : List (Text × Option Text)) : Sound b Anyhow (annotations σ ps) := by
  induction ps generalizing b with
  | nil => exact Sound.pure fun _ _ => trivial
  | cons p ps ih => exact (sound_annotation hs p.2).bind fun _ c h _ => (ih (hs.mono h)).bind fun _ _ _ _ => Sound.pure fun _ _ => trivial

theorem sound_forLoop {b : Bool} {f : Scope → ℤ → M (Scope × Option Val)} (ns : List ℤ) :
    (∀ σ n c, Weaker c b → SoundScope c σ → Sound c SoundRes (f σ n)) → ∀ σ, SoundScope b σ → Sound b SoundRes (forLoop f ns σ) := by
  induction ns generalizing b with
  | nil => exact fun _ σ hs => Sound.pure fun c hc => ⟨hs.mono hc, soundMaybe_none⟩
  | cons n ns ih =>
    intro h σ hs
    rw [forLoop]
    refine (h σ n b id hs).bind fun r c hc hr => ?_
    obtain ⟨σ1, o⟩ := r
    cases o with
    | some v => exact Sound.pure fun c' hc' => hr.mono hc'
    | none => exact ih (fun σ n c' hc' => h σ n c' fun e => hc (hc' e)) σ1 hr.1

theorem sound_callKw {b : Bool} (f : Val) {a : Val} (ha : SoundVal b a) (k : Text) (v : Val) : Sound b Anyhow (callKw f a k v) := by
  unfold callKw
  split
  · split
    · exact Sound.emitOutput ha _
    · exact Sound.throw _
  · exact Sound.throw _

theorem sound_def {b : Bool} {σ : Scope} (hs : SoundScope b σ) (deco : Bool) (f : Text) (ps : List (Text × Option Text)) (body : Block) :
    Sound b SoundScope (defStmt σ deco f ps body) := by
  unfold defStmt
  split
  · refine (Sound.find hs _).bind fun v c h _ => (sound_annotations (hs.mono h) ps).bind fun qs c' h' _ => ?_
    split
    · exact Sound.pure fun c2 h2 => (hs.mono fun e => h (h' (h2 e))).set f trivial
    · exact Sound.throw _
  · exact Sound.throw _

mutual

theorem sound_execS {call : Caller} (hc : SoundCaller call) (s : Stmt) {b : Bool} (σ : Scope) (hs : SoundScope b σ) : Sound b SoundRes (execS call s σ) := by
  have stay : ∀ c, Weaker c b → SoundRes c (σ, none) := fun c hc => ⟨hs.mono hc, soundMaybe_none⟩
  match s with
  | .expr e =>
    rw [execS]
    exact (sound_evalE hc hs e).bind fun _ c h _ => Sound.pure fun c' h' => stay c' fun e => h (h' e)
  | .exprKw f e k v =>
    rw [execS]
    exact (Sound.find hs f).bind fun g c h hg => (sound_evalE hc (hs.mono h) e).bind fun x c1 h1 hx =>
      (sound_evalE hc (hs.mono fun e => h (h1 e)) v).bind fun y c2 h2 hy => (sound_callKw g (hx.mono h2) k y).bind fun _ c3 h3 _ =>
        Sound.pure fun c4 h4 => stay c4 fun e => h (h1 (h2 (h3 (h4 e))))
  | .assign x e =>
    rw [execS]
    exact (sound_evalE hc hs e).bind fun v c h hv => Sound.pure fun c' h' =>
      ⟨(hs.mono fun e => h (h' e)).set x (hv.mono h'), soundMaybe_none⟩
  | .setItem d k e =>
    rw [execS]
    exact (sound_evalE hc hs e).bind fun v c h hv => (sound_asObj hv).bind fun o c1 h1 ho => (Sound.find (hs.mono fun e => h (h1 e)) d).bind
      fun dv c2 h2 _ => (sound_asDict dv).bind fun i c3 h3 _ => (Sound.dictSet i k (ho.mono fun e => h2 (h3 e))).bind fun _ c4 h4 _ =>
        Sound.pure fun c5 h5 => stay c5 fun e => h (h1 (h2 (h3 (h4 (h5 e)))))
  | .newDict d =>
    rw [execS]
    exact Sound.dictNew.bind fun i c h _ => Sound.pure fun c' h' => ⟨(hs.mono fun e => h (h' e)).set d trivial, soundMaybe_none⟩
  | .copyDict d =>
    rw [execS]
    exact (Sound.find hs d).bind fun v c h _ => (sound_asDict v).bind fun i c1 h1 _ => (Sound.dictCopy i).bind fun j c2 h2 _ =>
      Sound.pure fun c3 h3 => ⟨(hs.mono fun e => h (h1 (h2 (h3 e)))).set d trivial, soundMaybe_none⟩
  | .ret e =>
    rw [execS]
    exact (sound_evalE hc hs e).bind fun v c h hv => Sound.pure fun c' h' => ⟨hs.mono fun e => h (h' e), soundMaybe_some (hv.mono h')⟩
  | .pass =>
    rw [execS]
    exact Sound.pure stay
  | .cond x bl r =>
    rw [execS]
    refine (sound_evalE hc hs x).bind fun v c h _ => (sound_truth v).bind fun t c' h' _ => ?_
    cases t with
    | true => exact sound_execB hc bl σ (hs.mono fun e => h (h' e))
    | false => exact sound_execElse hc r σ (hs.mono fun e => h (h' e))
  | .for_ x e bl =>
    rw [execS]
    refine (sound_evalE hc hs e).bind fun v c h _ => (sound_iter v).bind fun ns c' h' _ => ?_
    exact sound_forLoop ns (fun σ' n c2 h2 hs' => sound_execB hc bl _ (hs'.set x (v := .obj (.num n)) trivial)) σ (hs.mono fun e => h (h' e))
  | .def_ deco f ps bl =>
    rw [execS]
    exact (sound_def hs deco f ps bl).bind fun σ' c h hs' => Sound.pure fun c' h' => ⟨hs'.mono h', soundMaybe_none⟩

theorem sound_execB {call : Caller} (hc : SoundCaller call) (bl : Block) {b : Bool} (σ : Scope) (hs : SoundScope b σ) : Sound b SoundRes (execB call bl σ) := by
  match bl with
  | .nil =>
    rw [execB]
    exact Sound.pure fun c h => ⟨hs.mono h, soundMaybe_none⟩
  | .cons s bl =>
    rw [execB]
    refine (sound_execS hc s σ hs).bind fun r c h hr => ?_
    obtain ⟨σ1, o⟩ := r
    cases o with
    | some v => exact Sound.pure fun c' hc' => hr.mono hc'
    | none => exact sound_execB hc bl σ1 hr.1

theorem sound_execElse {call : Caller} (hc : SoundCaller call) (r : Else) {b : Bool} (σ : Scope) (hs : SoundScope b σ) :
    Sound b SoundRes (execElse call r σ) := by
  match r with
  | .done =>
    rw [execElse]
    exact Sound.pure fun c h => ⟨hs.mono h, soundMaybe_none⟩
  | .else_ bl =>
    rw [execElse]
    exact sound_execB hc bl σ hs
  | .elif x bl r =>
    rw [execElse]
    refine (sound_evalE hc hs x).bind fun v c h _ => (sound_truth v).bind fun t c' h' _ => ?_
    cases t with
    | true => exact sound_execB hc bl σ (hs.mono fun e => h (h' e))
    | false => exact sound_execElse hc r σ (hs.mono fun e => h (h' e))

end

theorem sound_split {b : Bool} {vs : List Val} (h : SoundVals b vs) : SoundObjs b (splitArgs vs).1 ∧ SoundVals b (splitArgs vs).2 := by
  induction vs with
  | nil => exact ⟨(fun o ho => by cases ho), fun v hv => by cases hv⟩
  | cons v vs ih =>
    cases v with
    | obj o =>
      obtain ⟨h1, h2⟩ := ih fun v hv => h v (List.mem_cons_of_mem _ hv)
      refine ⟨fun o' ho' => ?_, h2⟩
      rcases List.mem_cons.1 ho' with rfl | ho'
      · exact h _ List.mem_cons_self
      · exact h1 o' ho'
    | _ => exact ⟨(fun o ho => by cases ho), h⟩

theorem sound_returned {b : Bool} {o : Option Val} (h : SoundMaybe b o) : Sound b SoundOpt (returned o) := by
  unfold returned
  split
  · exact Sound.pure fun _ _ x hx => by cases hx
  · exact Sound.pure fun c hc => Sound.opt_some (SoundObj.mono hc (h _ rfl))
  · exact Sound.pure fun _ _ x hx => by cases hx
  · exact Sound.throw _

theorem sound_callF {call : Caller} (hc : SoundCaller call) : SoundCaller (callF call) := by
  intro b g f args hg ha
  obtain ⟨h1, h2⟩ := sound_split ha
  unfold callF
  split
  · refine (Sound.fnCall (fun os c h hos => ?_) fun a hm => h1 _ (List.of_mem_zip hm).2).obj
    unfold runBody
    refine (sound_execB hc f.body _ ⟨hg.mono h, fun l hl => ?_⟩).bind fun r c' h' hr => sound_returned hr.2
    cases hl
    intro x hx
    rcases List.mem_append.1 (List.of_mem_zip hx).2 with hv | hv
    · obtain ⟨o, ho, e⟩ := List.mem_map.1 hv
      rw [← e]
      exact hos o ho
    · exact (h2 _ hv).mono h
  · exact Sound.throw _

theorem sound_callU (n : ℕ) : SoundCaller (callU n) := by
  induction n with
  | zero => exact fun _ _ _ _ _ _ => Sound.throw _
  | succ n ih => exact sound_callF ih

theorem sound_globals (b : Bool) : SoundEnv b libGlobals := by
  have one : ∀ g : Obj → M Obj, (∀ b a, SoundObj b a → Sound b SoundObj (g a)) → ∀ b os, SoundObjs b os → Sound b SoundObj (app1 g os) := by
    intro g hg b os hos
    rcases os with _ | ⟨a, _ | ⟨a', os⟩⟩
    · exact Sound.throw _
    · exact hg b a (hos a List.mem_cons_self)
    · exact Sound.throw _
  have two : ∀ g : Obj → Obj → M Obj, (∀ b a o, SoundObj b a → SoundObj b o → Sound b SoundObj (g a o)) →
      ∀ b os, SoundObjs b os → Sound b SoundObj (app2 g os) := by
    intro g hg b os hos
    rcases os with _ | ⟨a, _ | ⟨a', _ | ⟨a2, os⟩⟩⟩
    · exact Sound.throw _
    · exact Sound.throw _
    · exact hg b a a' (hos a List.mem_cons_self) (hos a' (List.mem_cons_of_mem _ List.mem_cons_self))
    · exact Sound.throw _
  have nil : SoundEnv b [] := fun x hx => by cases hx
  have cons : ∀ {x : Text} {v : Val} {g : Env}, SoundVal b v → SoundEnv b g → SoundEnv b ((x, v) :: g) := by
    intro x v g hv hg y hy
    rcases List.mem_cons.1 hy with rfl | hy
    · exact hv
    · exact hg y hy
  unfold libGlobals
  refine cons trivial ?_
  refine cons trivial ?_
  refine cons trivial ?_
  refine cons trivial ?_
  refine cons trivial ?_
  refine cons trivial ?_
  refine cons trivial ?_
  refine cons trivial ?_
  refine cons trivial ?_
  refine cons (two _ fun b a o ha ho => Sound.myRange a o) ?_
  refine cons trivial ?_
  refine cons trivial ?_
  refine cons trivial ?_
  refine cons trivial ?_
  refine cons trivial ?_
  refine cons (one _ fun b a ha => Sound.absolute ha) ?_
  refine cons (two _ fun b a o ha ho => Sound.contains ha ho) ?_
  refine cons (two _ fun b a o ha ho => Sound.countIn ha ho) ?_
  refine cons (one _ fun b a ha => Sound.explode ha) ?_
  refine cons (two _ fun b a o ha ho => Sound.highestN ha ho) ?_
  refine cons (two _ fun b a o ha ho => Sound.lowestN ha ho) ?_
  refine cons (two _ fun b a o ha ho => Sound.middleN ha ho) ?_
  refine cons (two _ fun b a o ha ho => Sound.highestOf ha ho) ?_
  refine cons (two _ fun b a o ha ho => Sound.lowestOf ha ho) ?_
  refine cons (one _ fun b a ha => Sound.maximumOf ha) ?_
  refine cons (one _ fun b a ha => Sound.reverse ha) ?_
  refine cons (one _ fun b a ha => Sound.sort ha) ?_
  refine cons (two _ fun b a o ha ho => Sound.myMatmul a ho) ?_
  refine cons (one _ fun b a ha => Sound.pure fun _ _ => trivial) ?_
  refine cons (one _ fun b a ha => Sound.myInvert a) ?_
  refine cons (two _ fun b a o ha ho => Sound.myAnd ha ho) ?_
  refine cons (two _ fun b a o ha ho => Sound.myOr ha ho) ?_
  refine cons (two _ fun b a o ha ho => Sound.binop .truediv ha ho) ?_
  exact nil

/-- A Python program, whether it succeeds or not. -/
theorem sound_exec (n : ℕ) (p : Block) : Sound true Anyhow (unsafeExec n p) := by
  unfold unsafeExec
  refine Sound.bind (P := Anyhow) ?_ fun _ c h _ => ?_
  · intro w hw
    refine ⟨le_rfl, (fun c hc => ?_), fun _ _ _ z => ⟨z, rfl⟩⟩
    have hw' : SoundWorld c w := by
      cases c with
      | false => exact hw
      | true => exact (hc rfl).2.2
    exact ⟨⟨hw'.memo, (fun x hx => by cases hx), hw'.dicts⟩, fun _ _ => trivial⟩
  · refine Sound.bind (P := Anyhow) ?_ fun _ c' h' _ => Sound.plain (fun _ => rfl) (fun _ _ => rfl) fun _ _ => trivial
    unfold runModule
    exact (sound_execB (sound_callU n) p _ ⟨sound_globals c, fun l hl => by cases hl⟩).bind fun _ _ _ _ => Sound.pure fun _ _ => trivial

end PythonDice
