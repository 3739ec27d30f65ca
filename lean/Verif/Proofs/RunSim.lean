import Verif.Proofs.RunRel

/-!
# Running the generated text does what the program does
-/

namespace PythonDice

open Spec Compiler
open Exec (Val Env Scope Lib FDef Caller globalFind localFind libGlobals lift callLib evalE evalArgs applyVal binVal unaryVal listVal indexVal
  dictGet app1 app2 objs pyOp)

/-! ## What is in the library -/

theorem lib_output : globalFind libGlobals "output".toList = .ok (.lib .output) := rfl
theorem lib_settings : globalFind libGlobals "settings_set".toList = .ok (.lib .settings) := rfl
theorem lib_getSeq : globalFind libGlobals "get_seq".toList = .ok (.lib .getSeq) := rfl
theorem lib_roll : globalFind libGlobals "roll".toList = .ok (.lib .roll) := rfl
theorem lib_casting : globalFind libGlobals "anydice_casting".toList = .ok (.lib .casting) := rfl
theorem lib_myrange : globalFind libGlobals "myrange".toList = .ok (.lib (.exact 2 (app2 myRange))) := rfl
theorem lib_myMatmul : globalFind libGlobals "myMatmul".toList = .ok (.lib (.exact 2 (app2 myMatmul))) := rfl
theorem lib_myAnd : globalFind libGlobals "myAnd".toList = .ok (.lib (.exact 2 (app2 myAnd))) := rfl
theorem lib_myOr : globalFind libGlobals "myOr".toList = .ok (.lib (.exact 2 (app2 myOr))) := rfl
theorem lib_myInvert : globalFind libGlobals "myInvert".toList = .ok (.lib (.exact 1 (app1 myInvert))) := rfl
theorem lib_myLen : globalFind libGlobals "myLen".toList = .ok (.lib (.exact 1 (app1 fun a => pure (.num (myLen a))))) := rfl
theorem lib_len : globalFind libGlobals "len".toList = .ok (.lib (.exact 1 (app1 lenOp))) := rfl

/-! ## Expressions -/

/-- The value is the object. -/
def ObjVal (v : Val) (o : Obj) (_ : Dicts) : Prop := v = .obj o

/-- The values are the objects. -/
def ListVal (vs : List Val) (os : List Obj) (_ : Dicts) : Prop := vs = os.map Val.obj

theorem objs_map (os : List Obj) : objs (os.map Val.obj) = some os := by
  induction os with
  | nil => rfl
  | cons o os ih => rw [List.map_cons, objs, ih]; rfl

/-- The same for all dictionaries with a property. -/
def ESim (P : Dicts → Prop) (m : M Val) (m' : M Obj) : Prop := ∀ d, P d → Sim none d ObjVal m m'

section
variable {P : Dicts → Prop} {call : Caller} {σ : Scope}

theorem ESim.two {m k : M Val} {m' k' : M Obj} {f : Val → Val → M Val} {g : Obj → Obj → M Obj} (hP : ∀ d d', P d → EnvExt none d d' → P d')
    (ha : ESim P m m') (hb : ESim P k k') (hfg : ∀ a b, f (.obj a) (.obj b) = Val.obj <$> g a b) (hg : ∀ a b, Blind (g a b)) :
    ESim P (m >>= fun a => k >>= fun b => f a b) (m' >>= fun a => k' >>= fun b => g a b) := by
  intro d hd
  refine (ha d hd).bind fun v a d1 h1 hv => ?_
  obtain rfl := hv
  refine (hb d1 (hP _ _ hd h1)).bind fun v b d2 h2 hv => ?_
  obtain rfl := hv
  rw [hfg]
  exact Sim.mapBlind _ (hg _ _) fun _ => rfl

theorem ESim.one {m : M Val} {m' : M Obj} {f : Val → M Val} {g : Obj → M Obj}
    (ha : ESim P m m') (hfg : ∀ a, f (.obj a) = Val.obj <$> g a) (hg : ∀ a, Blind (g a)) :
    ESim P (m >>= fun a => f a) (m' >>= fun a => g a) := by
  intro d hd
  refine (ha d hd).bind fun v a d1 h1 hv => ?_
  obtain rfl := hv
  rw [hfg]
  exact Sim.mapBlind _ (hg _) fun _ => rfl

theorem lift_bind {α β : Type} {r : Except Err α} {a : α} (h : r = .ok a) (f : α → M β) : (lift r >>= f) = f a := by
  rw [h]
  rfl

theorem eval_bin {l r : Py.Expr} {m k : M Obj} {op : List Char} {g : Obj → Obj → M Obj} (hP : ∀ d d', P d → EnvExt none d d' → P d')
    (ha : ESim P (evalE call σ l) m) (hb : ESim P (evalE call σ r) k) (hop : pyOp op = some g) (hg : ∀ a b, Blind (g a b)) :
    ESim P (evalE call σ (.bin op l r)) (m >>= fun a => k >>= fun b => g a b) := by
  have e : evalE call σ (.bin op l r) = evalE call σ l >>= fun a => evalE call σ r >>= fun b => binVal op a b := by rw [evalE]
  rw [e]
  exact ESim.two hP ha hb (fun a b => by unfold binVal; rw [hop]) hg

theorem eval_cmp {l r : Py.Expr} {m k : M Obj} {op : List Char} {g : Obj → Obj → M Obj} (hP : ∀ d d', P d → EnvExt none d d' → P d')
    (ha : ESim P (evalE call σ l) m) (hb : ESim P (evalE call σ r) k) (hop : pyOp op = some g) (hg : ∀ a b, Blind (g a b)) :
    ESim P (evalE call σ (.cmp false op l r)) (m >>= fun a => k >>= fun b => g a b) := by
  have e : evalE call σ (.cmp false op l r) = evalE call σ l >>= fun a => evalE call σ r >>= fun b => binVal op a b := by rw [evalE]
  rw [e]
  exact ESim.two hP ha hb (fun a b => by unfold binVal; rw [hop]) hg

theorem eval_unary {l : Py.Expr} {m : M Obj} {op : List Char} {g : Obj → M Obj} (ha : ESim P (evalE call σ l) m)
    (hop : ∀ a, unaryVal op (.obj a) = Val.obj <$> g a) (hg : ∀ a, Blind (g a)) :
    ESim P (evalE call σ (.unary op l)) (m >>= fun a => g a) := by
  have e : evalE call σ (.unary op l) = evalE call σ l >>= fun a => unaryVal op a := by rw [evalE]
  rw [e]
  exact ESim.one ha hop hg

theorem eval_call2 {l r : Py.Expr} {m k : M Obj} {f : String} {L : Lib} {g : Obj → Obj → M Obj} (hP : ∀ d d', P d → EnvExt none d d' → P d')
    (hf : σ.find f.toList = .ok (.lib L)) (ha : ESim P (evalE call σ l) m) (hb : ESim P (evalE call σ r) k)
    (hL : ∀ a b, callLib L [.obj a, .obj b] = Val.obj <$> g a b) (hg : ∀ a b, Blind (g a b)) :
    ESim P (evalE call σ (callOf f [l, r])) (m >>= fun a => k >>= fun b => g a b) := by
  have e : evalE call σ (callOf f [l, r]) = evalE call σ l >>= fun a => evalE call σ r >>= fun b => callLib L [a, b] := by
    unfold callOf toArgs toArgs toArgs
    rw [evalE, evalE, lift_bind hf, evalArgs, evalArgs, evalArgs]
    simp only [bind_assoc, pure_bind, applyVal]
  rw [e]
  exact ESim.two hP ha hb hL hg

theorem eval_call1 {l : Py.Expr} {m : M Obj} {f : String} {L : Lib} {g : Obj → M Obj}
    (hf : σ.find f.toList = .ok (.lib L)) (ha : ESim P (evalE call σ l) m)
    (hL : ∀ a, callLib L [.obj a] = Val.obj <$> g a) (hg : ∀ a, Blind (g a)) :
    ESim P (evalE call σ (callOf f [l])) (m >>= fun a => g a) := by
  have e : evalE call σ (callOf f [l]) = evalE call σ l >>= fun a => callLib L [a] := by
    unfold callOf toArgs toArgs
    rw [evalE, evalE, lift_bind hf, evalArgs, evalArgs]
    simp only [bind_assoc, pure_bind, applyVal]
  rw [e]
  exact ESim.one ha hL hg

end

/-- How calls of user functions behave: the same, given the same arguments and variables. -/
def CallSim (dig : Char → Bool) (lit : Char → Prop) (st : Style) (call : Caller) (call' : RunCall) : Prop :=
  ∀ (G : Env) (fns : Fns) (fr : Frame) (p : List DefPart) (body : Block) (args : List Obj) (i : ℕ) (d : Dicts),
    GRel dig lit st G fns → (st.dict = true → fr.own = none ∧ DictRel i fr d) →
    (st.dict = false → ∀ x, VarOK x → globalFind G x = varRes (fr.program.lookup x)) →
    GoodFn dig lit st p body → args.length = (paramsOf p).length →
    Sim none d ObjVal (call G (fdef st p body) (args.map Val.obj ++ extra st.dict i)) (call' fr fns p body args)

section
variable {dig : Char → Bool} {lit : Char → Prop} {st : Style} {top : Bool} {i : ℕ} {σ : Scope} {fns : Fns} {fr : Frame}
  {call : Caller} {call' : RunCall}

theorem rel_stable : ∀ d d', Rel dig lit st top i σ fns fr d → EnvExt none d d' → Rel dig lit st top i σ fns fr d' :=
  fun _ _ h hx => h.ext hx

theorem plainText_inl (x : List Char) : plainText (x.map Sum.inl) = some x := by
  induction x with
  | nil => rfl
  | cons c x ih => rw [List.map_cons, plainText, ih]; rfl

/-- A variable, from the dictionary. -/
theorem sim_dictGet {d : Dicts} (h : Rel dig lit st top i σ fns fr d) (hd : st.dict = true) {x : List Char} (hx : VarOK x) :
    Sim none d SameRes (dictGet i x) (getVar st.rules fr x) := by
  obtain ⟨ho, hv, D, h1, h2⟩ := h.dict hd
  have e1 : fr.find x = fr.env.lookup x := by unfold Frame.find; rw [ho]
  have e2 : st.rules.missing = .key := by unfold Rules.missing Style.rules; rw [if_pos hd]
  intro w
  unfold getVar dictGet Match
  have e3 : (w.withDicts d).dicts = d := rfl
  rw [e1, e2, e3, h1]
  dsimp only
  rw [h2 x hx]
  cases fr.env.lookup x with
  | none => exact ⟨d, rfl⟩
  | some o => exact ⟨o, d, rfl, EnvExt.refl _ _, rfl⟩

/-- A variable of Python. -/
theorem sim_find {d : Dicts} (h : Rel dig lit st top i σ fns fr d) (hd : st.dict = false) {x : List Char} (hx : VarOK x) :
    Sim none d ObjVal (lift (σ.find x)) (getVar st.rules fr x) := by
  unfold getVar
  have e2 : st.rules.missing = .name := by unfold Rules.missing Style.rules; rw [hd]; rfl
  rw [h.find_var hd hx, e2]
  cases fr.find x with
  | none => exact Sim.throw _
  | some o => exact Sim.pure rfl

/-- The value of a variable. -/
theorem eval_var {x : List Char} (hx : VarOK x) : ESim (Rel dig lit st top i σ fns fr) (evalE call σ (mean st (.var x))) (getVar st.rules fr x) := by
  intro d h
  rw [mean]
  cases hd : st.dict with
  | false =>
    have e : evalE call σ (.name x) = lift (σ.find x) := by rw [evalE]
    rw [if_neg (by simp), e]
    exact sim_find h hd hx
  | true =>
    have e : evalE call σ (.index (.name "vars".toList) (.str x)) = Val.obj <$> dictGet i x := by
      rw [evalE, evalE, evalE, lift_bind (h.dict hd).2.1, pure_bind]
      unfold indexVal
      dsimp only
      rw [plainText_inl]
    rw [if_pos rfl, e]
    exact Sim.map _ (sim_dictGet h hd hx) fun a b _ _ h => by rw [h]; rfl

/-! ## Literals -/

theorem field_var (x : List Char) : (("vars['".toList ++ x ++ "']".toList).drop 6).dropLast.dropLast = x := by
  have e : ("vars['".toList ++ x ++ "']".toList).drop 6 = x ++ "']".toList := by
    rw [List.append_assoc]
    exact List.drop_left (l₁ := "vars['".toList)
  rw [e]
  have e2 : "']".toList = ['\'', ']'] := rfl
  rw [e2, List.dropLast_append_of_ne_nil (by simp)]
  simp

/-- A variable in a literal. -/
theorem sim_field {d : Dicts} (h : Rel dig lit st top i σ fns fr d) {x : List Char} (hx : VarOK x) :
    Sim none d SameRes (Exec.fieldVal σ (if st.dict then "vars['".toList ++ x ++ "']".toList else x)) (getVar st.rules fr x) := by
  unfold Exec.fieldVal
  cases hd : st.dict with
  | true =>
    rw [if_pos rfl, if_pos ⟨by rw [List.append_assoc]; exact List.prefix_append _ _, List.suffix_append _ _⟩, lift_bind (h.dict hd).2.1, field_var]
    exact sim_dictGet h hd hx
  | false =>
    have hn : ¬ ("vars['".toList <+: x ∧ "']".toList <:+ x) := by
      rintro ⟨⟨r, hr⟩, _⟩
      have : 'v' ∈ x := by rw [← hr]; exact List.mem_append_left _ (by decide +kernel)
      exact absurd (hx.1.2 _ this) (by decide)
    rw [if_neg (c := false = true) (by simp), if_neg hn]
    · have e : getVar st.rules fr x = getVar st.rules fr x >>= pure := by rw [bind_pure]
      rw [e]
      refine (sim_find h hd hx).bind fun v o d' _ hv => ?_
      obtain rfl := hv
      exact Sim.pure rfl

theorem fstrVal_chars (s : List Char) (ps : List Py.FPiece) :
    Exec.fstrVal σ (s.map .char ++ ps) = Exec.fstrVal σ ps >>= fun t => pure (s.map Sum.inl ++ t) := by
  induction s with
  | nil => simp
  | cons c s ih =>
    rw [List.map_cons, List.cons_append, Exec.fstrVal, ih]
    simp

/-- A literal. -/
theorem sim_text {ps : List StrPart} (hok : PartsOK lit ps) (hf : ps.all partFree = true) : ∀ {d : Dicts}, Rel dig lit st top i σ fns fr d →
    Sim none d SameRes (Exec.fstrVal σ (pieces st.dict ps)) (textOf st.rules fr ps) := by
  induction ps with
  | nil => intro d h; exact Sim.pure rfl
  | cons p ps ih =>
    intro d h
    rw [List.all_cons, Bool.and_eq_true] at hf
    have hok' : PartsOK lit ps := fun q hq => hok q (List.mem_cons_of_mem _ hq)
    cases p with
    | text s =>
      have e : pieces st.dict (.text s :: ps) = s.map .char ++ pieces st.dict ps := rfl
      rw [e, fstrVal_chars, textOf]
      refine (ih hok' hf.2 h).bind fun t t' d' _ ht => ?_
      obtain rfl := ht
      exact Sim.pure rfl
    | var x =>
      have e : pieces st.dict (.var x :: ps) = .field (if st.dict then "vars['".toList ++ x ++ "']".toList else x) :: pieces st.dict ps := rfl
      rw [e, Exec.fstrVal, textOf]
      refine (sim_field h (varOK_of (hok _ (List.mem_cons_self ..)) hf.1)).bind fun o o' d1 h1 ho => ?_
      obtain rfl := ho
      refine (ih hok' hf.2 (h.ext h1)).bind fun t t' d' _ ht => ?_
      obtain rfl := ht
      exact Sim.pure rfl

theorem evalArgs_append (as : List Py.Expr) (bs : List Py.Expr) : evalArgs call σ (toArgs (as ++ bs)) =
    evalArgs call σ (toArgs as) >>= fun us => evalArgs call σ (toArgs bs) >>= fun vs => pure (us ++ vs) := by
  induction as with
  | nil =>
    rw [List.nil_append, toArgs, evalArgs]
    simp
  | cons a as ih =>
    rw [List.cons_append, toArgs, evalArgs, ih, toArgs, evalArgs]
    simp

mutual

theorem sim_E (hc : CallSim dig lit st call call') (e : Expr) (hok : ExprOK dig lit e) (hf : freeX st e = true) :
    ESim (Rel dig lit st top i σ fns fr) (evalE call σ (mean st e)) (runE st.rules call' fns fr e) := by
  match e with
  | .num n =>
    rw [mean, evalE, runE]
    exact fun d _ => Sim.pure rfl
  | .dec a b =>
    rw [mean, evalE, runE]
    exact fun d _ => Sim.throw _
  | .var x =>
    rw [runE]
    exact eval_var (varOK_of hok (by rw [freeX] at hf; exact hf))
  | .str ps => rw [freeX] at hf; cases hf
  | .group e => rw [mean, runE]; exact sim_E hc e hok (by rw [freeX] at hf; exact hf)
  | .bin op l r =>
    rw [freeX, Bool.and_eq_true] at hf
    rw [ExprOK] at hok
    have hl := sim_E hc l hok.1 hf.1
    have hr := sim_E hc r hok.2 hf.2
    rw [mean, runE]
    cases op with
    | add => exact eval_bin rel_stable hl hr rfl fun _ _ => Blind.binop _ _ _
    | sub => exact eval_bin rel_stable hl hr rfl fun _ _ => Blind.binop _ _ _
    | mul => exact eval_bin rel_stable hl hr rfl fun _ _ => Blind.binop _ _ _
    | div => exact eval_bin rel_stable hl hr rfl fun _ _ => Blind.binop _ _ _
    | pow => exact eval_bin rel_stable hl hr rfl fun _ _ => Blind.binop _ _ _
    | lt => exact eval_cmp rel_stable hl hr rfl fun _ _ => Blind.binop _ _ _
    | gt => exact eval_cmp rel_stable hl hr rfl fun _ _ => Blind.binop _ _ _
    | eq => exact eval_cmp rel_stable hl hr rfl fun _ _ => Blind.binop _ _ _
    | ne => exact eval_cmp rel_stable hl hr rfl fun _ _ => Blind.binop _ _ _
    | le => exact eval_cmp rel_stable hl hr rfl fun _ _ => Blind.binop _ _ _
    | ge => exact eval_cmp rel_stable hl hr rfl fun _ _ => Blind.binop _ _ _
    | at_ =>
      have hi : st.rules.ints = st.calls := rfl
      rw [hi]
      cases st.calls with
      | false => exact eval_bin rel_stable hl hr rfl fun _ _ => Blind.matmul _ _
      | true =>
        intro d h
        exact eval_call2 (g := myMatmul) rel_stable ((h.find_runtime (by decide +kernel)).trans lib_myMatmul) hl hr (fun _ _ => rfl) (fun _ _ => Blind.myMatmul _ _) d h
    | and_ =>
      have hi : st.rules.ints = st.calls := rfl
      rw [hi]
      cases st.calls with
      | false => exact eval_bin rel_stable hl hr rfl fun _ _ => Blind.binop _ _ _
      | true =>
        intro d h
        exact eval_call2 (g := myAnd) rel_stable ((h.find_runtime (by decide +kernel)).trans lib_myAnd) hl hr (fun _ _ => rfl) (fun _ _ => Blind.myAnd _ _) d h
    | or_ =>
      have hi : st.rules.ints = st.calls := rfl
      rw [hi]
      cases st.calls with
      | false => exact eval_bin rel_stable hl hr rfl fun _ _ => Blind.binop _ _ _
      | true =>
        intro d h
        exact eval_call2 (g := myOr) rel_stable ((h.find_runtime (by decide +kernel)).trans lib_myOr) hl hr (fun _ _ => rfl) (fun _ _ => Blind.myOr _ _) d h
  | .ndm l r =>
    rw [freeX, Bool.and_eq_true] at hf
    rw [ExprOK] at hok
    rw [mean, runE]
    intro d h
    exact eval_call2 rel_stable ((h.find_runtime (by decide +kernel)).trans lib_roll) (sim_E hc l hok.1 hf.1) (sim_E hc r hok.2 hf.2)
      (fun _ _ => rfl) (fun _ _ => Blind.roll _ _) d h
  | .dm r =>
    rw [mean, runE]
    intro d h
    exact eval_call1 ((h.find_runtime (by decide +kernel)).trans lib_roll) (sim_E hc r hok (by rw [freeX] at hf; exact hf)) (fun _ => rfl)
      (fun _ => Blind.roll1 _) d h
  | .unary op e =>
    have he := sim_E hc e hok (by rw [freeX] at hf; exact hf)
    rw [mean, runE]
    cases op with
    | plus => exact eval_unary he (fun _ => rfl) Blind.posOp
    | minus => exact eval_unary he (fun _ => rfl) Blind.negOp
    | not_ =>
      have hi : st.rules.ints = st.calls := rfl
      rw [hi]
      cases st.calls with
      | false => exact eval_unary he (fun _ => rfl) Blind.invertOp
      | true =>
        intro d h
        exact eval_call1 (g := myInvert) ((h.find_runtime (by decide +kernel)).trans lib_myInvert) he (fun _ => rfl) Blind.myInvert d h
  | .hash e =>
    have he := sim_E hc e hok (by rw [freeX] at hf; exact hf)
    rw [mean, runE]
    have hi : st.rules.ints = st.calls := rfl
    rw [hi]
    intro d h
    cases st.calls with
    | false => exact eval_call1 (g := lenOp) ((h.find_runtime (by decide +kernel)).trans lib_len) he (fun _ => rfl) Blind.lenOp d h
    | true =>
      exact eval_call1 ((h.find_runtime (by decide +kernel)).trans lib_myLen) he (g := fun a => pure (.num (myLen a))) (fun _ => rfl)
        (fun _ => Blind.pure _) d h
  | .seq es =>
    rw [mean, runE]
    intro d h
    have e : evalE call σ (callOf "get_seq" [.list (toArgs (meanE st es))]) =
        evalArgs call σ (toArgs (meanE st es)) >>= fun vs => listVal vs >>= fun v => callLib .getSeq [v] := by
      have e : callOf "get_seq" [.list (toArgs (meanE st es))] = .call (.name "get_seq".toList) (.cons (.list (toArgs (meanE st es))) .nil) := rfl
      rw [e, evalE, evalE, lift_bind ((h.find_runtime (by decide +kernel)).trans lib_getSeq), evalArgs, evalArgs, evalE]
      simp only [bind_assoc, pure_bind, applyVal]
    rw [e]
    refine (sim_L hc es hok (by rw [freeX] at hf; exact hf) d h).bind fun vs os d' _ hv => ?_
    obtain rfl := hv
    unfold listVal
    rw [objs_map]
    exact Sim.pure rfl
  | .call cs =>
    rw [freeX, Bool.and_eq_true] at hf
    rw [ExprOK] at hok
    have hs : SigFree st (callSig cs) := ⟨callSig_ok cs hok.2, hf.1⟩
    rw [mean, runE]
    intro d h
    have hfn := h.find_fn hs
    have hargs := sim_C hc cs hok.2 hf.2 d h
    unfold getFn
    rw [evalE, evalE]
    cases hl : fns.lookup (callSig cs) with
    | none =>
      rw [hl] at hfn
      have hfn' : σ.find (pyName st.pre (callSig cs)) = .error .name := hfn
      rw [hfn']
      exact Sim.throw _
    | some f =>
      rw [hl] at hfn
      have harg : Sim none d (fun vs os _ => vs = os.map Val.obj ++ extra st.dict i ∧ os.length = arity (callSig cs))
          (evalArgs call σ (toArgs (meanC st cs ++ if st.dict then [.name "vars".toList] else []))) (runArgs st.rules call' fns fr cs) := by
        rw [evalArgs_append]
        have e : runArgs st.rules call' fns fr cs = runArgs st.rules call' fns fr cs >>= pure := by rw [bind_pure]
        rw [e]
        refine hargs.bind fun vs os d1 h1 hv => ?_
        obtain ⟨rfl, hlen⟩ := hv
        cases hd : st.dict with
        | false =>
          rw [if_neg (by simp), toArgs, evalArgs]
          exact Sim.pure ⟨rfl, hlen⟩
        | true =>
          rw [if_pos rfl, toArgs, toArgs, evalArgs, evalArgs, evalE, lift_bind (h.dict hd).2.1]
          exact Sim.pure ⟨rfl, hlen⟩
      cases f with
      | lib g =>
        obtain ⟨L, hL, hb, hcl⟩ := hfn
        rw [lift_bind hL]
        refine harg.bind fun vs os d1 h1 hv => ?_
        obtain ⟨rfl, hlen⟩ := hv
        unfold applyVal applyFn
        dsimp only
        rw [hcl os i hlen]
        exact Sim.mapBlind _ (hb os) fun _ => rfl
      | user p body =>
        obtain ⟨hL, hg, ha⟩ := hfn
        rw [lift_bind hL]
        refine harg.bind fun vs os d1 h1 hv => ?_
        obtain ⟨rfl, hlen⟩ := hv
        unfold applyVal applyFn
        dsimp only
        exact hc σ.globals fns fr p body os i d1 h.globals (fun hd => ⟨(h.dict hd).1, (h.dict hd).2.2.ext h1 (by simp)⟩)
          (fun hd => h.program hd) hg (hlen.trans ha.symm)

theorem sim_L (hc : CallSim dig lit st call call') (es : Elems) (hok : ElemsOK dig lit es) (hf : freeL st es = true) (d : Dicts)
    (h : Rel dig lit st top i σ fns fr d) :
    Sim none d ListVal (evalArgs call σ (toArgs (meanE st es))) (runElems st.rules call' fns fr es) := by
  match es with
  | .nil =>
    rw [meanE, toArgs, evalArgs, runElems]
    exact Sim.pure rfl
  | .expr e es =>
    rw [freeL, Bool.and_eq_true] at hf
    rw [ElemsOK] at hok
    rw [meanE, toArgs, evalArgs, runElems]
    refine (sim_E hc e hok.1 hf.1 d h).bind fun v o d1 h1 hv => ?_
    obtain rfl := hv
    refine (sim_L hc es hok.2 hf.2 d1 (h.ext h1)).bind fun vs os d2 h2 hv => ?_
    obtain rfl := hv
    exact Sim.pure rfl
  | .range l r es =>
    rw [freeL, Bool.and_eq_true, Bool.and_eq_true] at hf
    rw [ElemsOK] at hok
    rw [meanE, toArgs, evalArgs, runElems]
    have hr := eval_call2 (call := call) (σ := σ) (L := .exact 2 (app2 myRange)) (g := myRange) (f := "myrange") rel_stable
      ((h.find_runtime (by decide +kernel)).trans lib_myrange) (sim_E hc l hok.1 hf.1.1) (sim_E hc r hok.2.1 hf.1.2) (fun _ _ => rfl)
      (fun _ _ => Blind.myRange _ _) d h
    have e : (runE st.rules call' fns fr l >>= fun a => runE st.rules call' fns fr r >>= fun b => myRange a b >>= fun s =>
        runElems st.rules call' fns fr es >>= fun items => pure (s :: items)) =
        (runE st.rules call' fns fr l >>= fun a => runE st.rules call' fns fr r >>= fun b => myRange a b) >>= fun s =>
        runElems st.rules call' fns fr es >>= fun items => pure (s :: items) := by
      simp only [bind_assoc]
    rw [e]
    refine hr.bind fun v o d1 h1 hv => ?_
    obtain rfl := hv
    refine (sim_L hc es hok.2.2 hf.2 d1 (h.ext h1)).bind fun vs os d2 h2 hv => ?_
    obtain rfl := hv
    exact Sim.pure rfl

theorem sim_C (hc : CallSim dig lit st call call') (cs : CallParts) (hok : CallOK dig lit cs) (hf : freeC st cs = true) (d : Dicts)
    (h : Rel dig lit st top i σ fns fr d) :
    Sim none d (fun vs os _ => vs = os.map Val.obj ∧ os.length = arity (callSig cs)) (evalArgs call σ (toArgs (meanC st cs)))
      (runArgs st.rules call' fns fr cs) := by
  match cs with
  | .nil =>
    rw [meanC, toArgs, evalArgs, runArgs]
    exact Sim.pure ⟨rfl, rfl⟩
  | .word w cs =>
    rw [freeC] at hf
    rw [CallOK] at hok
    rw [meanC, runArgs]
    exact sim_C hc cs hok.2 hf d h
  | .arg e cs =>
    rw [freeC, Bool.and_eq_true] at hf
    rw [CallOK] at hok
    rw [meanC, toArgs, evalArgs, runArgs]
    refine (sim_E hc e hok.1 hf.1 d h).bind fun v o d1 h1 hv => ?_
    obtain rfl := hv
    refine (sim_C hc cs hok.2 hf.2 d1 (h.ext h1)).bind fun vs os d2 h2 hv => ?_
    obtain ⟨rfl, hlen⟩ := hv
    exact Sim.pure ⟨rfl, by simp [callSig, arity, hlen]⟩

end

end

end PythonDice
