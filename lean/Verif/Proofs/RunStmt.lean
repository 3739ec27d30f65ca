import Verif.Proofs.RunSim

/-!
# Running the generated text does what the program does: statements
-/

namespace PythonDice

open Spec Compiler
open Exec (Val Env Scope Lib FDef Caller globalFind localFind libGlobals lift callLib evalE evalArgs applyVal execS execB execElse forLoop defStmt
  annotation annotations dictSet truthVal iterVal asObj asDict callKw)

/-! ## Definitions of functions -/

theorem pyParams_snd (p : List DefPart) : (pyParams p).map Prod.snd = (p.filterMap pyParam).map Prod.snd := by
  unfold pyParams
  refine List.ext_getElem? fun k => ?_
  rw [List.getElem?_map, List.getElem?_mapIdx, List.getElem?_map, Option.map_map]
  rfl

theorem pyParams_length (p : List DefPart) : (pyParams p).length = (p.filterMap pyParam).length := by
  unfold pyParams
  rw [List.length_mapIdx]

theorem params_length (p : List DefPart) : (p.filterMap pyParam).length = (paramsOf p).length := by
  unfold paramsOf
  induction p with
  | nil => rfl
  | cons q p ih =>
    cases q with
    | word w => exact ih
    | param x => exact congrArg (· + 1) ih
    | typed x t => exact congrArg (· + 1) ih

theorem params_fst (p : List DefPart) : (p.filterMap pyParam).map Prod.fst = (paramsOf p).map Prod.fst := by
  unfold paramsOf
  induction p with
  | nil => rfl
  | cons q p ih =>
    cases q with
    | word w => exact ih
    | param x => exact congrArg (x :: ·) ih
    | typed x t => exact congrArg (x :: ·) ih

theorem params_arity (p : List DefPart) : (paramsOf p).length = arity (defSig p) := by
  unfold paramsOf arity defSig
  induction p with
  | nil => rfl
  | cons q p ih =>
    cases q with
    | word w => exact ih
    | param x => exact congrArg (· + 1) ih
    | typed x t => exact congrArg (· + 1) ih

theorem annotations_eq {σ : Scope} {ps : List (List Char × Option (List Char))} {ts : List (Option Ty)}
    (h : List.Forall₂ (fun q t => annotation σ q = pure t) (ps.map Prod.snd) ts) :
    annotations σ ps = pure ((ps.map Prod.fst).zip ts) := by
  induction ps generalizing ts with
  | nil => rfl
  | cons p ps ih =>
    rw [List.map_cons] at h
    cases h with
    | cons h1 h2 =>
      rw [annotations, h1, ih h2]
      rfl

theorem annotation_of {σ : Scope} {T : List Char} {t : Ty} (h : σ.find T = .ok (.ty t)) : annotation σ (some T) = pure (some t) := by
  unfold annotation
  dsimp only
  rw [lift_bind h]

theorem annotation_types {σ : Scope} (hT : ∀ x ∈ runtimeTypes, σ.find x = globalFind libGlobals x) {p : List DefPart}
    (hf : p.all freeD = true) :
    List.Forall₂ (fun q t => annotation σ q = pure t) ((p.filterMap pyParam).map Prod.snd) ((paramsOf p).map Prod.snd) := by
  unfold paramsOf
  induction p with
  | nil => exact .nil
  | cons q p ih =>
    rw [List.all_cons, Bool.and_eq_true] at hf
    cases q with
    | word w => exact ih hf.2
    | param x => exact .cons rfl (ih hf.2)
    | typed x t =>
      have ht : t ∈ ["n".toList, "s".toList, "d".toList] := by
        have := hf.1
        rw [freeD, Bool.and_eq_true] at this
        exact of_decide_eq_true this.2
      refine .cons ?_ (ih hf.2)
      simp only [List.mem_cons, List.not_mem_nil, or_false] at ht
      rcases ht with rfl | rfl | rfl
      · exact annotation_of (T := "T_N".toList) (by rw [hT _ (by decide +kernel)]; rfl)
      · exact annotation_of (T := "T_S".toList) (by rw [hT _ (by decide +kernel)]; rfl)
      · exact annotation_of (T := "T_D".toList) (by rw [hT _ (by decide +kernel)]; rfl)

theorem forall₂_snoc {α β : Type} {R : α → β → Prop} {l : List α} {m : List β} {a : α} {b : β} (h : List.Forall₂ R l m) (hab : R a b) :
    List.Forall₂ R (l ++ [a]) (m ++ [b]) := by
  induction h with
  | nil => exact .cons hab .nil
  | cons h _ ih => exact .cons h ih

/-- The parameters of a definition. -/
theorem annotations_params {σ : Scope} (hT : ∀ x ∈ runtimeTypes, σ.find x = globalFind libGlobals x) (st : Style) {p : List DefPart}
    (hf : p.all freeD = true) (body : Block) :
    annotations σ (pyParams p ++ if st.dict then [("vars".toList, none)] else []) = pure (fdef st p body).params := by
  unfold fdef
  have h := annotation_types hT hf
  rw [← pyParams_snd] at h
  cases st.dict with
  | false =>
    rw [if_neg (by simp), if_neg (by simp), List.append_nil, List.append_nil]
    exact annotations_eq h
  | true =>
    rw [if_pos rfl, if_pos rfl]
    have h2 := annotations_eq (σ := σ) (ps := pyParams p ++ [("vars".toList, none)]) (ts := (paramsOf p).map Prod.snd ++ [none])
      (by rw [List.map_append]; exact forall₂_snoc h rfl)
    rw [h2, List.map_append, List.zip_append (by rw [List.length_map, List.length_map, pyParams_length, params_length])]
    rfl

/-! ## Statements -/

/-- The states after a statement, and what it returns. -/
structure StRel (dig : Char → Bool) (lit : Char → Prop) (st : Style) (top : Bool) (i : ℕ) (N : Option (List (List Char)))
    (r : Scope × Option Val) (r' : State × Option Obj) (d : Dicts) : Prop where
  rel : Rel dig lit st top i r.1 r'.1.fns r'.1.fr d
  own : r.1.locals.map Prod.fst = N
  ret : r.2 = r'.2.map Val.obj

/-- The names are local variables, in a function. -/
def Within (N : Option (List (List Char))) (l : List (List Char)) : Prop := ∀ ns, N = some ns → ∀ x ∈ l, x ∈ ns

theorem set_own {σ : Scope} {N : Option (List (List Char))} (h : σ.locals.map Prod.fst = N) (x : List Char) (v : Val) :
    (σ.set x v).locals.map Prod.fst = N := by
  rw [← h]
  unfold Scope.set
  cases hl : σ.locals with
  | none => rfl
  | some l => rfl

theorem bindsB_suite (b : Py.Block) : Exec.bindsB (pySuite b) = Exec.bindsB b := by
  cases b with
  | nil => rfl
  | cons s b => rfl

section
variable {dig : Char → Bool} {lit : Char → Prop} {st : Style} {top : Bool} {i : ℕ} {call : Caller} {call' : RunCall}

theorem truth_bind {α β : Type} {own : Option ℕ} {d : Dicts} {R : α → β → Dicts → Prop} {o : Obj} {f : Bool → M α} {f' : Bool → M β}
    (h : ∀ t, Sim own d R (f t) (f' t)) : Sim own d R (truthVal (.obj o) >>= f) (truthOp o >>= f') :=
  Sim.bindBlind (m := truthOp o) (Blind.truthOp o) h

/-- Storing a variable. -/
theorem sim_store {σ : Scope} {fns : Fns} {fr : Frame} {d : Dicts} (h : Rel dig lit st top i σ fns fr d) (hd : st.dict = true) (x : List Char)
    (o : Obj) {f : Unit → M (Scope × Option Val)} {m' : M (State × Option Obj)} {R : Scope × Option Val → State × Option Obj → Dicts → Prop}
    (hf : ∀ d', Rel dig lit st top i σ fns (fr.set x o) d' → Sim (some i) d' R (f ()) m') :
    Sim (some i) d R (dictSet i x o >>= f) m' := by
  have hs := h.store hd (x := x) o
  intro w
  have e : (dictSet i x o >>= f) (w.withDicts d) = f () (w.withDicts (d.modify i ((x, o) :: ·))) := rfl
  rw [e]
  have h2 := hf _ hs w
  have hx : EnvExt (some i) d (d.modify i ((x, o) :: ·)) := by
    refine ⟨by rw [List.length_modify], fun j hj ho => ?_⟩
    rw [List.getElem?_modify_ne]
    rintro rfl
    exact ho rfl
  unfold Match at h2 ⊢
  rcases hr : (m' w).1 with e | c
  · rw [hr] at h2
    exact h2
  · rw [hr] at h2
    obtain ⟨a, d', h3, h4, h5⟩ := h2
    exact ⟨a, d', h3, hx.trans h4, h5⟩

theorem sim_loop {N : Option (List (List Char))} {f : Scope → ℤ → M (Scope × Option Val)} {f' : State → ℤ → M (State × Option Obj)}
    (hf : ∀ n σ s d, Rel dig lit st top i σ s.fns s.fr d → σ.locals.map Prod.fst = N →
      Sim (some i) d (StRel dig lit st top i N) (f σ n) (f' s n)) (ns : List ℤ) :
    ∀ σ s d, Rel dig lit st top i σ s.fns s.fr d → σ.locals.map Prod.fst = N →
      Sim (some i) d (StRel dig lit st top i N) (forLoop f ns σ) (runLoop f' ns s) := by
  induction ns with
  | nil => intro σ s d h hN; exact Sim.pure ⟨h, hN, rfl⟩
  | cons n ns ih =>
    intro σ s d h hN
    rw [forLoop, runLoop]
    refine (hf n σ s d h hN).bind fun r r' d1 h1 hr => ?_
    obtain ⟨r1, r2⟩ := r
    obtain ⟨s1, s2⟩ := r'
    obtain ⟨hr1, hr2, hr3⟩ := hr
    dsimp only at hr1 hr2 hr3 ⊢
    subst hr3
    cases s2 with
    | none => exact ih r1 s1 d1 hr1 hr2
    | some v => exact Sim.pure ⟨hr1, hr2, rfl⟩

theorem execB_suite (b : Py.Block) (σ : Scope) : execB call (pySuite b) σ = execB call b σ := by
  cases b with
  | nil =>
    show execB call (.cons .pass .nil) σ = execB call .nil σ
    rw [execB, execB, execS, pure_bind]
    dsimp only
    rw [execB]
  | cons s b => rfl

/-- The definition of a function. -/
theorem sim_def {σ : Scope} {fns : Fns} {fr : Frame} {d : Dicts} (h : Rel dig lit st true i σ fns fr d) {p : List DefPart} {body : Block}
    (hg : GoodFn dig lit st p body) (hs : SigFree st (defSig p)) :
    defStmt σ true (pyName st.pre (defSig p)) (pyParams p ++ if st.dict then [("vars".toList, none)] else [])
        (pyBody st.dict ((pyParams p).map Prod.fst) (meanB st body)) =
      pure (σ.set (pyName st.pre (defSig p)) (.fn (fdef st p body))) ∧
    Rel dig lit st true i (σ.set (pyName st.pre (defSig p)) (.fn (fdef st p body))) ((defSig p, .user p body) :: fns) fr d := by
  have hl : σ.locals = none := by
    have := h.top
    rwa [Option.isNone_iff_eq_none] at this
  have hT : ∀ x ∈ runtimeTypes, σ.find x = globalFind libGlobals x := by
    intro x hx
    have : σ.find x = globalFind σ.globals x := by unfold Scope.find; rw [hl]
    rw [this]
    exact h.globals.needed x (List.mem_append_right _ hx)
  have hset : ∀ v, (σ.set (pyName st.pre (defSig p)) v).globals = (pyName st.pre (defSig p), v) :: σ.globals := by
    intro v
    unfold Scope.set
    rw [hl]
  constructor
  · unfold defStmt
    rw [if_pos ⟨rfl, h.top⟩, lift_bind ((h.find_runtime (by decide +kernel)).trans lib_casting), annotations_params hT st hg.free body]
    rfl
  · refine ⟨?_, by rw [Scope.set_top]; exact h.top, Scope.set_names _ h.names, fun hd => ⟨(h.dict hd).1, ?_, (h.dict hd).2.2⟩, fun hd => ?_⟩
    · rw [hset]
      exact h.globals.define hg hs (params_arity p)
    · rw [Scope.find_set_ne _ (pyName_not_vars hs)]
      exact (h.dict hd).2.1
    · have hp := h.plain hd
      unfold PlainRel at hp ⊢
      have hl' : (σ.set (pyName st.pre (defSig p)) (.fn (fdef st p body))).locals = none := by
        unfold Scope.set
        rw [hl]
      rw [hl'] 
      rw [hl] at hp
      cases ho : fr.own with
      | some own => rw [ho] at hp; exact hp.elim
      | none =>
        rw [ho] at hp
        dsimp only at hp ⊢
        intro x hx
        rw [hset, globalFind_cons_ne (pyName_not_var hs hx.1)]
        exact hp x hx

theorem mean_pieces (n : List StrPart) (σ : Scope) : evalE call σ (.fstr (pieces st.dict n)) = Val.str <$> Exec.fstrVal σ (pieces st.dict n) := by
  rw [evalE]

/-- The value of a setting. -/
theorem sim_set (hc : CallSim dig lit st call call') {σ : Scope} {fns : Fns} {fr : Frame} {d : Dicts} (h : Rel dig lit st top i σ fns fr d)
    {n : List StrPart} {v : Expr} (hn : PartsOK lit n) (hv : ExprOK dig lit v) (hfn : n.all partFree = true) (hfv : freeV st v = true) :
    Sim none d (fun _ _ _ => True) (evalE call σ (callOf "settings_set" [.fstr (pieces st.dict n), mean st v]))
      (runSet st.rules call' ⟨fns, fr⟩ n v) := by
  have e : evalE call σ (callOf "settings_set" [.fstr (pieces st.dict n), mean st v]) =
      Exec.fstrVal σ (pieces st.dict n) >>= fun t => evalE call σ (mean st v) >>= fun u => callLib .settings [.str t, u] := by
    unfold callOf toArgs toArgs toArgs
    rw [evalE, evalE, lift_bind ((h.find_runtime (by decide +kernel)).trans lib_settings), evalArgs, evalArgs, evalArgs, mean_pieces]
    simp only [bind_assoc, pure_bind, applyVal, map_eq_pure_bind]
  have key : ∀ e : Expr, ExprOK dig lit e → freeX st e = true → Sim none d (fun _ _ _ => True)
      (Exec.fstrVal σ (pieces st.dict n) >>= fun t => evalE call σ (mean st e) >>= fun u => callLib .settings [.str t, u])
      (textOf st.rules fr n >>= fun n => runE st.rules call' fns fr e >>= fun o => settingsSetObj n o) := by
    intro e he hfe
    refine (sim_text hn hfn h).bind fun t t' d1 h1 ht => ?_
    obtain rfl := ht
    refine (sim_E hc e he hfe d1 (h.ext h1)).bind fun u o d2 h2 hu => ?_
    obtain rfl := hu
    have e : settingsSetObj t o = settingsSetObj t o >>= pure := by rw [bind_pure]
    rw [e]
    exact Sim.bindBlind (Blind.settingsSetObj _ _) fun _ => Sim.pure trivial
  rw [e]
  cases v with
  | str ps =>
    rw [runSet, mean]
    refine (sim_text hn hfn h).bind fun t t' d1 h1 ht => ?_
    obtain rfl := ht
    have e2 : evalE call σ (.fstr (pieces st.dict ps)) >>= (fun u => callLib .settings [.str t, u]) =
        Exec.fstrVal σ (pieces st.dict ps) >>= fun u => callLib .settings [.str t, .str u] := by
      rw [mean_pieces]
      simp only [bind_assoc, pure_bind, map_eq_pure_bind]
    rw [e2]
    refine (sim_text hv hfv (h.ext h1)).bind fun u u' d2 h2 hu => ?_
    obtain rfl := hu
    have e : settingsSetStr t u = settingsSetStr t u >>= pure := by rw [bind_pure]
    rw [e]
    exact Sim.bindBlind (Blind.settingsSetStr _ _) fun _ => Sim.pure trivial
  | _ => exact key _ hv hfv

/-- A condition. -/
theorem sim_if {N : Option (List (List Char))} {σ : Scope} {s : State} {d : Dicts} (hc : CallSim dig lit st call call')
    (h : Rel dig lit st top i σ s.fns s.fr d) {c : Expr} (hok : ExprOK dig lit c) (hf : freeX st c = true)
    {x y : M (Scope × Option Val)} {x' y' : M (State × Option Obj)}
    (hx : ∀ d', Rel dig lit st top i σ s.fns s.fr d' → Sim (some i) d' (StRel dig lit st top i N) x x')
    (hy : ∀ d', Rel dig lit st top i σ s.fns s.fr d' → Sim (some i) d' (StRel dig lit st top i N) y y') :
    Sim (some i) d (StRel dig lit st top i N) (evalE call σ (mean st c) >>= fun v => truthVal v >>= fun t => if t then x else y)
      (runE st.rules call' s.fns s.fr c >>= fun o => truthOp o >>= fun t => if t then x' else y') := by
  have he : Sim none d (fun v o d' => v = .obj o ∧ EnvExt none d d') (evalE call σ (mean st c)) (runE st.rules call' s.fns s.fr c) :=
    (sim_E hc c hok hf d h).mono fun v o d' hx hv => ⟨hv, hx⟩
  refine (he.weaken (some i)).bind fun v o d1 _ hv => ?_
  obtain ⟨rfl, h1⟩ := hv
  refine truth_bind fun t => ?_
  cases t with
  | true => exact hx _ (h.ext h1)
  | false => exact hy _ (h.ext h1)

/-- An expression in a statement. -/
theorem sim_X {α β : Type} {Q : α → β → Dicts → Prop} {σ : Scope} {fns : Fns} {fr : Frame} {d : Dicts} (hc : CallSim dig lit st call call')
    (h : Rel dig lit st top i σ fns fr d) {e : Expr} (hok : ExprOK dig lit e) (hf : freeX st e = true) {f : Val → M α} {f' : Obj → M β}
    (hk : ∀ o d', Rel dig lit st top i σ fns fr d' → Sim (some i) d' Q (f (.obj o)) (f' o)) :
    Sim (some i) d Q (evalE call σ (mean st e) >>= f) (runE st.rules call' fns fr e >>= f') := by
  have he : Sim none d (fun v o d' => v = .obj o ∧ EnvExt none d d') (evalE call σ (mean st e)) (runE st.rules call' fns fr e) :=
    (sim_E hc e hok hf d h).mono fun v o d' hx hv => ⟨hv, hx⟩
  refine (he.weaken (some i)).bind fun v o d1 _ hv => ?_
  obtain ⟨rfl, h1⟩ := hv
  exact hk _ _ (h.ext h1)

mutual

theorem sim_S {N : Option (List (List Char))} (hc : CallSim dig lit st call call') (s : Stmt) (hok : StmtOK dig lit s)
    (hf : freeS st top s = true) (hb : Within N (Exec.bindsS (meanS st s))) {σ : Scope} {fns : Fns} {fr : Frame} {d : Dicts}
    (h : Rel dig lit st top i σ fns fr d) (hN : σ.locals.map Prod.fst = N) :
    Sim (some i) d (StRel dig lit st top i N) (execS call (meanS st s) σ) (runS st.rules call' s ⟨fns, fr⟩) := by
  match s with
  | .output e =>
    rw [freeS] at hf
    rw [StmtOK] at hok
    have e1 : execS call (meanS st (.output e)) σ = evalE call σ (mean st e) >>= fun v => callLib .output [v] >>= fun _ => pure (σ, none) := by
      rw [meanS, execS]
      unfold callOf toArgs toArgs
      rw [evalE, evalE, lift_bind ((h.find_runtime (by decide +kernel)).trans lib_output), evalArgs, evalArgs]
      simp only [bind_assoc, pure_bind, applyVal]
    rw [e1, runS]
    refine sim_X hc h hok hf fun o d1 h1 => ?_
    have e2 : (callLib .output [.obj o] >>= fun _ => (pure (σ, none) : M (Scope × Option Val))) = emitOutput o none >>= fun _ => pure (σ, none) := by
      unfold callLib
      simp only [bind_assoc, pure_bind]
    rw [e2]
    exact Sim.bindBlind (Blind.emitOutput _ _) fun _ => Sim.pure ⟨h1, hN, rfl⟩
  | .outputNamed e n =>
    rw [freeS, Bool.and_eq_true] at hf
    rw [StmtOK] at hok
    have e1 : execS call (meanS st (.outputNamed e n)) σ = evalE call σ (mean st e) >>= fun v => Exec.fstrVal σ (pieces st.dict n) >>= fun t =>
        callKw (.lib .output) v "named".toList (.str t) >>= fun _ => pure (σ, none) := by
      rw [meanS, execS, lift_bind ((h.find_runtime (by decide +kernel)).trans lib_output), mean_pieces]
      simp only [bind_assoc, pure_bind, map_eq_pure_bind]
    rw [e1, runS]
    refine sim_X hc h hok.1 hf.1 fun o d1 h1 => ?_
    have ht : Sim none d1 (fun a b d' => a = b ∧ EnvExt none d1 d') (Exec.fstrVal σ (pieces st.dict n)) (textOf st.rules fr n) :=
      (sim_text hok.2 hf.2 h1).mono fun a b d' hx hv => ⟨hv, hx⟩
    refine (ht.weaken (some i)).bind fun t t' d2 _ ht => ?_
    obtain ⟨rfl, h2⟩ := ht
    have e2 : callKw (.lib .output) (.obj o) "named".toList (.str t) = emitOutput o (some t) := by
      unfold callKw
      exact if_pos rfl
    rw [e2]
    exact Sim.bindBlind (Blind.emitOutput _ _) fun _ => Sim.pure ⟨h1.ext h2, hN, rfl⟩
  | .set n v =>
    rw [freeS, Bool.and_eq_true] at hf
    rw [StmtOK] at hok
    rw [meanS, execS, runS]
    have ht := (sim_set hc h hok.1 hok.2 hf.1 hf.2).mono (Q := fun _ _ d' => EnvExt none d d') fun a b d' hx hv => hx
    exact (ht.weaken (some i)).bind fun _ _ d1 _ h1 => Sim.pure ⟨h.ext h1, hN, rfl⟩
  | .function p body =>
    rw [freeS, Bool.and_eq_true, Bool.and_eq_true, Bool.and_eq_true] at hf
    rw [StmtOK] at hok
    obtain rfl : top = true := hf.1.1.1
    have hg : GoodFn dig lit st p body := ⟨hok.1, hf.1.2, hok.2, hf.2⟩
    have hd := sim_def h hg ⟨defSig_ok hok.1, hf.1.1.2⟩
    rw [meanS, execS, runS, hd.1, pure_bind]
    exact Sim.pure ⟨hd.2, set_own hN _ _, rfl⟩
  | .result e =>
    rw [freeS] at hf
    rw [StmtOK] at hok
    rw [meanS, execS, runS]
    exact sim_X hc h hok hf fun o d1 h1 => Sim.pure ⟨h1, hN, rfl⟩
  | .cond c b r =>
    rw [freeS, Bool.and_eq_true, Bool.and_eq_true] at hf
    rw [StmtOK] at hok
    rw [meanS, Exec.bindsS, bindsB_suite] at hb
    rw [meanS, execS, runS]
    refine sim_if hc h hok.1 hf.1.1 (fun d1 h1 => ?_) (fun d1 h1 => ?_)
    · rw [execB_suite]
      exact sim_B hc b hok.2.1 hf.1.2 (fun ns hn x hx => hb ns hn x (List.mem_append_left _ hx)) h1 hN
    · exact sim_Else hc r hok.2.2 hf.2 (fun ns hn x hx => hb ns hn x (List.mem_append_right _ hx)) h1 hN
  | .loop x e b =>
    rw [freeS, Bool.and_eq_true, Bool.and_eq_true] at hf
    rw [StmtOK] at hok
    have hx : VarOK x := varOK_of hok.1 hf.1.1
    rw [meanS, execS, runS]
    refine sim_X hc h hok.2.1 hf.1.2 fun o d1 h1 => ?_
    refine Sim.bindBlind (m := iterOp o) (Blind.iterOp o) fun ns => ?_
    refine sim_loop (fun n σ s d2 h2 hN => ?_) ns σ ⟨fns, fr⟩ d1 h1 hN
    cases hd : st.dict with
    | false =>
      rw [if_neg (by simp), execB_suite]
      have hb' : Within N (Exec.bindsB (meanB st b)) := by
        rw [meanS, Exec.bindsS, hd, if_neg (by simp), bindsB_suite] at hb
        exact fun ns hn x hx => hb ns hn x (List.mem_cons_of_mem _ hx)
      exact sim_B hc b hok.2.2 hf.2 hb' (h2.set hd hx _) (set_own hN _ _)
    | true =>
      rw [if_pos rfl]
      rw [meanS, Exec.bindsS, hd, if_pos rfl, Exec.bindsB, bindsB_suite] at hb
      have hb' : Within N (Exec.bindsB (meanB st b)) :=
        fun ns hn x hx => hb ns hn x (List.mem_cons_of_mem _ (List.mem_append_right _ hx))
      have hfx : (σ.set x (.obj (.num n))).find x = .ok (.obj (.num n)) := by
        refine Scope.find_set_self _ fun l hl => ?_
        refine hb l.1 ?_ x (List.mem_cons_self ..)
        rw [← hN, hl]
        rfl
      have h3 := h2.bindVar hd hx (.obj (.num n))
      have e1 : execB call (.cons (.setItem "vars".toList x (.name x)) (pySuite (meanB st b))) (σ.set x (.obj (.num n))) =
          dictSet i x (.num n) >>= fun _ => execB call (meanB st b) (σ.set x (.obj (.num n))) := by
        rw [execB, execS, evalE, lift_bind hfx]
        simp only [asObj, pure_bind]
        rw [lift_bind (h3.dict hd).2.1]
        simp only [asDict, bind_assoc, pure_bind, execB_suite]
      rw [e1]
      exact sim_store h3 hd x _ fun d3 h4 => sim_B hc b hok.2.2 hf.2 hb' h4 (set_own hN _ _)
  | .assign x e =>
    rw [freeS, Bool.and_eq_true] at hf
    rw [StmtOK] at hok
    have hx : VarOK x := varOK_of hok.1 hf.1
    cases hd : st.dict with
    | false =>
      rw [meanS, hd, if_neg (by simp), execS, runS]
      exact sim_X hc h hok.2 hf.2 fun o d1 h1 => Sim.pure ⟨h1.set hd hx o, set_own hN _ _, rfl⟩
    | true =>
      rw [meanS, hd, if_pos rfl, execS, runS]
      refine sim_X hc h hok.2 hf.2 fun o d1 h1 => ?_
      have e1 : (asObj (.obj o) >>= fun o => lift (σ.find "vars".toList) >>= fun d => asDict d >>= fun i => dictSet i x o >>= fun _ =>
          (pure (σ, none) : M (Scope × Option Val))) = dictSet i x o >>= fun _ => pure (σ, none) := by
        simp only [asObj, pure_bind]
        rw [lift_bind (h1.dict hd).2.1]
        simp only [asDict, pure_bind]
      rw [e1]
      exact sim_store h1 hd x o fun d2 h2 => Sim.pure ⟨h2, hN, rfl⟩

theorem sim_B {N : Option (List (List Char))} (hc : CallSim dig lit st call call') (b : Block) (hok : BlockOK dig lit b)
    (hf : freeB st top b = true) (hb : Within N (Exec.bindsB (meanB st b))) {σ : Scope} {fns : Fns} {fr : Frame} {d : Dicts}
    (h : Rel dig lit st top i σ fns fr d) (hN : σ.locals.map Prod.fst = N) :
    Sim (some i) d (StRel dig lit st top i N) (execB call (meanB st b) σ) (runB st.rules call' b ⟨fns, fr⟩) := by
  match b with
  | .nil =>
    rw [meanB, execB, runB]
    exact Sim.pure ⟨h, hN, rfl⟩
  | .cons s b =>
    rw [freeB, Bool.and_eq_true] at hf
    rw [BlockOK] at hok
    rw [meanB, Exec.bindsB] at hb
    rw [meanB, execB, runB]
    refine (sim_S hc s hok.1 hf.1 (fun ns hn x hx => hb ns hn x (List.mem_append_left _ hx)) h hN).bind fun r r' d1 h1 hr => ?_
    obtain ⟨r1, r2⟩ := r
    obtain ⟨⟨f1, f2⟩, s2⟩ := r'
    obtain ⟨hr1, hr2, hr3⟩ := hr
    dsimp only at hr1 hr2 hr3 ⊢
    subst hr3
    cases s2 with
    | none => exact sim_B hc b hok.2 hf.2 (fun ns hn x hx => hb ns hn x (List.mem_append_right _ hx)) hr1 hr2
    | some v => exact Sim.pure ⟨hr1, hr2, rfl⟩

theorem sim_Else {N : Option (List (List Char))} (hc : CallSim dig lit st call call') (r : Else) (hok : ElseOK dig lit r)
    (hf : freeE st top r = true) (hb : Within N (Exec.bindsE (meanElse st r))) {σ : Scope} {fns : Fns} {fr : Frame} {d : Dicts}
    (h : Rel dig lit st top i σ fns fr d) (hN : σ.locals.map Prod.fst = N) :
    Sim (some i) d (StRel dig lit st top i N) (execElse call (meanElse st r) σ) (runElse st.rules call' r ⟨fns, fr⟩) := by
  match r with
  | .done =>
    rw [meanElse, execElse, runElse]
    exact Sim.pure ⟨h, hN, rfl⟩
  | .else_ b =>
    rw [freeE] at hf
    rw [ElseOK] at hok
    rw [meanElse, Exec.bindsE, bindsB_suite] at hb
    rw [meanElse, execElse, runElse, execB_suite]
    exact sim_B hc b hok hf hb h hN
  | .elif c b r =>
    rw [freeE, Bool.and_eq_true, Bool.and_eq_true] at hf
    rw [ElseOK] at hok
    rw [meanElse, Exec.bindsE, bindsB_suite] at hb
    rw [meanElse, execElse, runElse]
    refine sim_if hc h hok.1 hf.1.1 (fun d1 h1 => ?_) (fun d1 h1 => ?_)
    · rw [execB_suite]
      exact sim_B hc b hok.2.1 hf.1.2 (fun ns hn x hx => hb ns hn x (List.mem_append_left _ hx)) h1 hN
    · exact sim_Else hc r hok.2.2 hf.2 (fun ns hn x hx => hb ns hn x (List.mem_append_right _ hx)) h1 hN

end

end

end PythonDice
