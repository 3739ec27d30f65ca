import Verif.Proofs.Sim
import Verif.Proofs.World
import Verif.Proofs.Program
import Verif.Spec.Runnable

/-!
# Running the generated text: names, and what a state of Python has to do with a state of the program
-/

namespace PythonDice

open Spec Compiler
open Exec (Val Env Scope Lib FDef globalFind localFind libGlobals lift callLib)

/-! ## Names -/

/-- What the generated text needs, other than the types. -/
def runtime : List (List Char) :=
  ["output", "settings_set", "get_seq", "roll", "anydice_casting", "myrange", "myMatmul", "myLen", "myInvert", "myAnd", "myOr", "len"].map
    String.toList

/-- The types. -/
def runtimeTypes : List (List Char) := ["T_N", "T_S", "T_D"].map String.toList

/-- The variable can be used. -/
def VarOK (x : List Char) : Prop := VarName x ∧ x ∉ takenVars

/-- The function can be used. -/
def SigFree (st : Style) (s : Sig) : Prop := SigOK s ∧ fnFree st s = true

/-- Names that can belong to a function. -/
def OwnName (x : List Char) : Prop := VarName x ∨ x = "vars".toList ∨ ∃ c ∈ x, c.isDigit = true

theorem varOK_of {x : List Char} (h : VarName x) (hf : varFree x = true) : VarOK x := ⟨h, by simpa [varFree] using hf⟩

theorem runtime_not_own : ∀ x ∈ runtime, ¬ OwnName x := by
  intro x hx
  have h : ∀ x ∈ runtime, (∃ c ∈ x, ¬ UpLetter c) ∧ x ≠ "vars".toList ∧ ∀ c ∈ x, c.isDigit = false := by decide +kernel
  obtain ⟨⟨c, hc, hu⟩, hv, hd⟩ := h x hx
  rintro (⟨_, h⟩ | h | ⟨c, hc, h⟩)
  · exact hu (h c hc)
  · exact hv h
  · rw [hd c hc] at h
    cases h

theorem varOK_not_runtime {x : List Char} (h : VarOK x) : x ∉ runtime ∧ x ∉ runtimeTypes := by
  refine ⟨fun hx => runtime_not_own x hx (.inl h.1), fun hx => h.2 ?_⟩
  have : ∀ x ∈ runtimeTypes, x ∈ takenVars := by decide +kernel
  exact this x hx

theorem vars_not_var : ¬ VarName "vars".toList := by
  rintro ⟨_, h⟩
  exact absurd (h 'v' (by decide +kernel)) (by decide)

theorem fnFree_iff {st : Style} {s : Sig} : fnFree st s = true ↔ (st.pre = true ∨ ∃ w, some w ∈ s) ∧ pyName st.pre s ∉ takenFns ∧
    ¬ (st.dict = true ∧ s = [some "true".toList, some "div".toList, none, none]) := by
  unfold fnFree
  rw [Bool.and_eq_true, Bool.and_eq_true, Bool.or_eq_true, List.any_eq_true, decide_eq_true_iff, Bool.not_eq_true', Bool.and_eq_false_iff,
    decide_eq_false_iff_not]
  constructor
  · rintro ⟨⟨h1, h2⟩, h3⟩
    refine ⟨h1.imp id ?_, h2, ?_⟩
    · rintro ⟨o, ho, hs⟩
      obtain ⟨w, rfl⟩ := Option.isSome_iff_exists.1 hs
      exact ⟨w, ho⟩
    · rintro ⟨h4, h5⟩
      rcases h3 with h3 | h3
      · rw [h4] at h3; cases h3
      · exact h3 h5
  · rintro ⟨h1, h2, h3⟩
    refine ⟨⟨h1.imp id ?_, h2⟩, ?_⟩
    · rintro ⟨w, hw⟩
      exact ⟨_, hw, rfl⟩
    · cases hd : st.dict
      · exact .inl rfl
      · exact .inr fun h => h3 ⟨hd, h⟩

/-- Characters of the names of functions. -/
theorem intercalate_mem {c : Char} {l : List (List Char)} (h : c ∈ ['_'].intercalate l) : c = '_' ∨ ∃ x ∈ l, c ∈ x := by
  induction l with
  | nil => simp [List.intercalate] at h
  | cons a l ih =>
    cases l with
    | nil =>
      rw [← join_eq_intercalate] at h
      exact .inr ⟨a, List.mem_cons_self .., by simpa [join] using h⟩
    | cons b l =>
      rw [← join_eq_intercalate, join, List.mem_append, List.mem_append] at h
      rcases h with (h | h) | h
      · exact .inr ⟨a, List.mem_cons_self .., h⟩
      · exact .inl (by simpa using h)
      · rw [join_eq_intercalate] at h
        rcases ih h with h | ⟨x, hx, h⟩
        · exact .inl h
        · exact .inr ⟨x, List.mem_cons_of_mem _ hx, h⟩

theorem mem_intercalate {c : Char} {x : List Char} {l : List (List Char)} (hx : x ∈ l) (h : c ∈ x) : c ∈ ['_'].intercalate l := by
  rw [← join_eq_intercalate]
  induction l with
  | nil => cases hx
  | cons a l ih =>
    cases l with
    | nil =>
      rw [List.mem_singleton] at hx
      subst hx
      simpa [join] using h
    | cons b l =>
      rw [join, List.mem_append, List.mem_append]
      rcases List.mem_cons.1 hx with rfl | hx
      · exact .inl (.inl h)
      · exact .inr (ih hx)

theorem pyName_not_own {st : Style} {s : Sig} (h : SigFree st s) : ¬ OwnName (pyName st.pre s) := by
  obtain ⟨hok, hf⟩ := h
  obtain ⟨hw, ht, _⟩ := fnFree_iff.1 hf
  rintro (⟨_, h⟩ | h | ⟨c, hc, h⟩)
  · rcases hw with hp | ⟨w, hw⟩
    · have := h 'f' (by unfold pyName; exact mem_intercalate (x := ['f']) (by simp [hp]) (by simp))
      exact absurd this (by decide)
    · obtain ⟨c, cs, rfl⟩ := List.exists_cons_of_ne_nil (hok w hw).1
      have h1 := h c (by
        unfold pyName
        exact mem_intercalate (x := c :: cs) (List.mem_append_right _ (List.mem_map.2 ⟨_, hw, rfl⟩)) (List.mem_cons_self ..))
      have h2 := (hok _ hw).2 c (List.mem_cons_self ..)
      unfold UpLetter at h1
      unfold LowLetter at h2
      rcases h1 with h1 | h1
      · have h3 : 'a'.toNat ≤ c.toNat := h2.1
        have h4 : c.toNat ≤ 'Z'.toNat := h1.2
        exact absurd (h3.trans h4) (by decide)
      · rw [h1] at h2
        exact absurd h2 (by decide)
  · exact ht (by rw [h]; decide +kernel)
  · unfold pyName at hc
    have hlow : ∀ c : Char, LowLetter c → c.isDigit = false := by
      intro c hc
      by_contra hd
      rw [Bool.not_eq_false, Char.isDigit, Bool.and_eq_true, decide_eq_true_iff, decide_eq_true_iff] at hd
      have h3 : 'a'.toNat ≤ c.toNat := hc.1
      have h4 : c.toNat ≤ '9'.toNat := hd.2
      exact absurd (h3.trans h4) (by decide)
    rcases intercalate_mem hc with rfl | ⟨x, hx, hc⟩
    · exact absurd h (by decide)
    · rcases List.mem_append.1 hx with hx | hx
      · split at hx
        · rw [List.mem_singleton] at hx
          rw [hx, List.mem_singleton] at hc
          rw [hc] at h
          exact absurd h (by decide)
        · cases hx
      · obtain ⟨o, ho, rfl⟩ := List.mem_map.1 hx
        cases o with
        | none =>
          rw [Option.getD_none, List.mem_singleton] at hc
          rw [hc] at h
          exact absurd h (by decide)
        | some w =>
          rw [hlow c ((hok w ho).2 c hc)] at h
          cases h

theorem pyName_not_var {st : Style} {s : Sig} (h : SigFree st s) {x : List Char} (hx : VarName x) : x ≠ pyName st.pre s := by
  rintro rfl
  exact pyName_not_own h (.inl hx)

theorem pyName_not_vars {st : Style} {s : Sig} (h : SigFree st s) : "vars".toList ≠ pyName st.pre s := by
  intro he
  exact pyName_not_own h (.inr (.inl he.symm))

theorem pyName_inj {pre : Bool} {s t : Sig} (hs : SigOK s) (ht : SigOK t) (h : pyName pre s = pyName pre t) : s = t := by
  have e : ∀ s : Sig, pyName pre s = mangle { libConflict := pre } (sigParts s) := by
    intro s
    unfold pyName mangle sigParts
    rw [join_eq_intercalate]
    cases pre <;> rfl
  rw [e, e] at h
  exact mangle_inj _ hs ht h

/-! ## Functions -/

/-- The number of arguments. -/
def arity (s : Sig) : ℕ := (s.filter Option.isNone).length

/-- The further argument that functions get. -/
def extra (dict : Bool) (i : ℕ) : List Val := if dict then [.dict i] else []

/-- What the definition of a function defines. -/
def fdef (st : Style) (p : List DefPart) (body : Block) : FDef :=
  ⟨((pyParams p).map Prod.fst).zip ((paramsOf p).map Prod.snd) ++ (if st.dict then [("vars".toList, none)] else []),
    pyBody st.dict ((pyParams p).map Prod.fst) (meanB st body)⟩

/-- A function that can be used. -/
structure GoodFn (dig : Char → Bool) (lit : Char → Prop) (st : Style) (p : List DefPart) (body : Block) : Prop where
  parts : ∀ q ∈ p, DefOK q
  free : p.all freeD = true
  bodyOK : BlockOK dig lit body
  bodyFree : freeB st false body = true

/-- What a name stands for in Python, and what the signature stands for. -/
def FnRel (dig : Char → Bool) (lit : Char → Prop) (st : Style) (s : Sig) (r : Except Err Val) : Option Fn → Prop
  | none => r = .error .name
  | some (.lib f) => ∃ L, r = .ok (.lib L) ∧ (∀ os, Blind (f os)) ∧
      ∀ os i, os.length = arity s → callLib L (os.map Val.obj ++ extra st.dict i) = Val.obj <$> f os
  | some (.user p body) => r = .ok (.fn (fdef st p body)) ∧ GoodFn dig lit st p body ∧ (paramsOf p).length = arity s

/-- What the variables of the module have to do with the functions of the program. -/
structure GRel (dig : Char → Bool) (lit : Char → Prop) (st : Style) (G : Env) (fns : Fns) : Prop where
  needed : ∀ x ∈ runtime ++ runtimeTypes, globalFind G x = globalFind libGlobals x
  fn : ∀ s, SigFree st s → FnRel dig lit st s (globalFind G (pyName st.pre s)) (fns.lookup s)

/-- The value of a variable of Python. -/
def varRes : Option Obj → Except Err Val
  | some o => .ok (.obj o)
  | none => .error .name

/-- What the variables of Python have to do with the variables of the program, if variables are variables of Python. -/
def PlainRel (σ : Scope) (fr : Frame) : Prop :=
  match σ.locals, fr.own with
  | none, none => ∀ x, VarOK x → globalFind σ.globals x = varRes (fr.env.lookup x)
  | some l, some own => (∀ x, VarOK x → (x ∈ l.1 ↔ x ∈ own)) ∧ (∀ x, VarOK x → localFind l.2 x = varRes (fr.env.lookup x)) ∧
      ∀ x, VarOK x → globalFind σ.globals x = varRes (fr.outer.lookup x)
  | _, _ => False

/-- What a dictionary has to do with the variables of the program. -/
def DictRel (i : ℕ) (fr : Frame) (d : Dicts) : Prop := ∃ D, d[i]? = some D ∧ ∀ x, VarOK x → D.lookup x = fr.env.lookup x

/-- What a state of Python has to do with a state of the program. -/
structure Rel (dig : Char → Bool) (lit : Char → Prop) (st : Style) (top : Bool) (i : ℕ) (σ : Scope) (fns : Fns) (fr : Frame) (d : Dicts) :
    Prop where
  globals : GRel dig lit st σ.globals fns
  top : σ.locals.isNone = top
  names : ∀ l, σ.locals = some l → ∀ x ∈ l.1, OwnName x
  dict : st.dict = true → fr.own = none ∧ σ.find "vars".toList = .ok (.dict i) ∧ DictRel i fr d
  plain : st.dict = false → PlainRel σ fr

section
variable {dig : Char → Bool} {lit : Char → Prop} {st : Style} {top : Bool} {i : ℕ} {σ : Scope} {fns : Fns} {fr : Frame} {d : Dicts}

theorem DictRel.ext {own : Option ℕ} {d' : Dicts} (h : DictRel i fr d) (hx : EnvExt own d d') (ho : some i ≠ own) : DictRel i fr d' := by
  obtain ⟨D, h1, h2⟩ := h
  exact ⟨D, hx.get ho h1, h2⟩

theorem Rel.ext {d' : Dicts} (h : Rel dig lit st top i σ fns fr d) (hx : EnvExt none d d') : Rel dig lit st top i σ fns fr d' :=
  ⟨h.globals, h.top, h.names, fun hd => ⟨(h.dict hd).1, (h.dict hd).2.1, (h.dict hd).2.2.ext hx (by simp)⟩, h.plain⟩

theorem find_notown (hn : ∀ l, σ.locals = some l → ∀ x ∈ l.1, OwnName x) {x : List Char} (hx : ¬ OwnName x) :
    σ.find x = globalFind σ.globals x := by
  unfold Scope.find
  cases hl : σ.locals with
  | none => rfl
  | some l => exact if_neg fun h => hx (hn l hl x h)

theorem Rel.find_runtime (h : Rel dig lit st top i σ fns fr d) {x : List Char} (hx : x ∈ runtime) : σ.find x = globalFind libGlobals x := by
  rw [find_notown h.names (runtime_not_own x hx)]
  exact h.globals.needed x (List.mem_append_left _ hx)

theorem Rel.find_fn (h : Rel dig lit st top i σ fns fr d) {s : Sig} (hs : SigFree st s) :
    FnRel dig lit st s (σ.find (pyName st.pre s)) (fns.lookup s) := by
  rw [find_notown h.names (pyName_not_own hs)]
  exact h.globals.fn s hs

theorem Rel.find_var (h : Rel dig lit st top i σ fns fr d) (hd : st.dict = false) {x : List Char} (hx : VarOK x) :
    σ.find x = varRes (fr.find x) := by
  have hp := h.plain hd
  unfold PlainRel at hp
  unfold Scope.find Frame.find
  cases hl : σ.locals with
  | none =>
    rw [hl] at hp
    cases ho : fr.own with
    | none => rw [ho] at hp; exact hp x hx
    | some own => rw [ho] at hp; exact hp.elim
  | some l =>
    rw [hl] at hp
    cases ho : fr.own with
    | none => rw [ho] at hp; exact hp.elim
    | some own =>
      rw [ho] at hp
      dsimp only at hp ⊢
      by_cases hm : x ∈ own
      · rw [if_pos hm, if_pos ((hp.1 x hx).2 hm)]
        exact hp.2.1 x hx
      · rw [if_neg hm, if_neg fun h => hm ((hp.1 x hx).1 h)]
        exact hp.2.2 x hx

/-- The variables of the module, seen from a function. -/
theorem Rel.program (h : Rel dig lit st top i σ fns fr d) (hd : st.dict = false) :
    ∀ x, VarOK x → globalFind σ.globals x = varRes (fr.program.lookup x) := by
  have hp := h.plain hd
  unfold PlainRel at hp
  unfold Frame.program
  cases hl : σ.locals with
  | none =>
    rw [hl] at hp
    cases ho : fr.own with
    | none => rw [ho] at hp; exact hp
    | some own => rw [ho] at hp; exact hp.elim
  | some l =>
    rw [hl] at hp
    cases ho : fr.own with
    | none => rw [ho] at hp; exact hp.elim
    | some own => rw [ho] at hp; exact hp.2.2

theorem globalFind_cons_ne {G : Env} {x y : List Char} {v : Val} (h : y ≠ x) : globalFind ((x, v) :: G) y = globalFind G y := by
  unfold globalFind
  rw [List.lookup_cons, beq_false_of_ne h]

theorem globalFind_cons_self {G : Env} {x : List Char} {v : Val} : globalFind ((x, v) :: G) x = .ok v := by
  unfold globalFind
  rw [List.lookup_cons_self]

/-- Binding a variable or `vars` in the module. -/
theorem GRel.bind {G : Env} (h : GRel dig lit st G fns) {x : List Char} (hx : VarOK x ∨ x = "vars".toList) (v : Val) :
    GRel dig lit st ((x, v) :: G) fns := by
  constructor
  · intro y hy
    rw [globalFind_cons_ne, h.needed y hy]
    rintro rfl
    rcases hx with hx | rfl
    · rcases List.mem_append.1 hy with hy | hy
      · exact (varOK_not_runtime hx).1 hy
      · exact (varOK_not_runtime hx).2 hy
    · exact absurd hy (by decide +kernel)
  · intro s hs
    rw [globalFind_cons_ne]
    · exact h.fn s hs
    · rcases hx with hx | rfl
      · exact (pyName_not_var hs hx.1).symm
      · exact (pyName_not_vars hs).symm

/-- Defining a function. -/
theorem GRel.define {G : Env} (h : GRel dig lit st G fns) {p : List DefPart} {body : Block} (hg : GoodFn dig lit st p body)
    (hs : SigFree st (defSig p)) (ha : (paramsOf p).length = arity (defSig p)) :
    GRel dig lit st ((pyName st.pre (defSig p), .fn (fdef st p body)) :: G) ((defSig p, .user p body) :: fns) := by
  constructor
  · intro y hy
    rw [globalFind_cons_ne, h.needed y hy]
    rintro rfl
    rcases List.mem_append.1 hy with hy | hy
    · have : ∀ x ∈ runtime, x ∈ takenFns := by decide +kernel
      exact (fnFree_iff.1 hs.2).2.1 (this _ hy)
    · have : ∀ x ∈ runtimeTypes, x ∈ takenFns := by decide +kernel
      exact (fnFree_iff.1 hs.2).2.1 (this _ hy)
  · intro s hs'
    by_cases he : s = defSig p
    · subst he
      rw [globalFind_cons_self, List.lookup_cons_self]
      exact ⟨rfl, hg, ha⟩
    · rw [globalFind_cons_ne, List.lookup_cons, beq_false_of_ne he]
      · exact h.fn s hs'
      · intro h
        exact he (pyName_inj hs'.1 hs.1 h)

/-- Binding a variable of Python. -/
theorem PlainRel.set (h : PlainRel σ fr) {x : List Char} (hx : VarOK x) (o : Obj) : PlainRel (σ.set x (.obj o)) (fr.set x o) := by
  unfold PlainRel Scope.set Frame.set at *
  cases hl : σ.locals with
  | none =>
    rw [hl] at h
    cases ho : fr.own with
    | some own => rw [ho] at h; exact h.elim
    | none =>
      rw [ho] at h
      dsimp only at h ⊢
      intro y hy
      by_cases he : y = x
      · subst he
        rw [globalFind_cons_self, List.lookup_cons_self]
        rfl
      · rw [globalFind_cons_ne he, List.lookup_cons, beq_false_of_ne he]
        exact h y hy
  | some l =>
    rw [hl] at h
    cases ho : fr.own with
    | none => rw [ho] at h; exact h.elim
    | some own =>
      rw [ho] at h
      dsimp only at h ⊢
      refine ⟨h.1, fun y hy => ?_, h.2.2⟩
      unfold localFind
      by_cases he : y = x
      · subst he
        rw [List.lookup_cons_self, List.lookup_cons_self]
        rfl
      · rw [List.lookup_cons, beq_false_of_ne he, List.lookup_cons, beq_false_of_ne he]
        exact h.2.1 y hy

theorem Scope.find_set_ne {x y : List Char} (v : Val) (h : y ≠ x) : (σ.set x v).find y = σ.find y := by
  unfold Scope.set Scope.find
  cases hl : σ.locals with
  | none => exact globalFind_cons_ne h
  | some l =>
    dsimp only
    unfold localFind
    rw [List.lookup_cons, beq_false_of_ne h]

theorem Scope.find_set_self {x : List Char} (v : Val) (h : ∀ l, σ.locals = some l → x ∈ l.1) : (σ.set x v).find x = .ok v := by
  unfold Scope.set Scope.find
  cases hl : σ.locals with
  | none => exact globalFind_cons_self
  | some l =>
    dsimp only
    rw [if_pos (h l hl)]
    unfold localFind
    rw [List.lookup_cons_self]

theorem Scope.set_names {x : List Char} (v : Val) (hn : ∀ l, σ.locals = some l → ∀ x ∈ l.1, OwnName x) :
    ∀ l, (σ.set x v).locals = some l → ∀ x ∈ l.1, OwnName x := by
  intro l hl
  unfold Scope.set at hl
  cases h : σ.locals with
  | none => rw [h] at hl; cases hl
  | some m =>
    rw [h] at hl
    have e : l.1 = m.1 := by cases hl; rfl
    rw [e]
    exact hn m h

theorem Scope.set_top {x : List Char} (v : Val) : (σ.set x v).locals.isNone = σ.locals.isNone := by
  unfold Scope.set
  cases h : σ.locals with
  | none => rfl
  | some m => rfl

theorem GRel.set (h : GRel dig lit st σ.globals fns) {x : List Char} (hx : VarOK x ∨ x = "vars".toList) (v : Val) :
    GRel dig lit st (σ.set x v).globals fns := by
  unfold Scope.set
  cases σ.locals with
  | none => exact h.bind hx v
  | some m => exact h

/-- Giving a value to a variable, if variables are variables of Python. -/
theorem Rel.set (h : Rel dig lit st top i σ fns fr d) (hd : st.dict = false) {x : List Char} (hx : VarOK x) (o : Obj) :
    Rel dig lit st top i (σ.set x (.obj o)) fns (fr.set x o) d :=
  ⟨h.globals.set (.inl hx) _, by rw [Scope.set_top]; exact h.top, Scope.set_names _ h.names, fun h' => (by rw [hd] at h'; cases h'),
    fun _ => (h.plain hd).set hx o⟩

/-- Binding a variable of Python, if variables are entries of a dictionary. -/
theorem Rel.bindVar (h : Rel dig lit st top i σ fns fr d) (hd : st.dict = true) {x : List Char} (hx : VarOK x) (v : Val) :
    Rel dig lit st top i (σ.set x v) fns fr d :=
  ⟨h.globals.set (.inl hx) _, by rw [Scope.set_top]; exact h.top, Scope.set_names _ h.names,
    fun h' => ⟨(h.dict h').1, by
      rw [Scope.find_set_ne]
      · exact (h.dict h').2.1
      · rintro rfl
        exact vars_not_var hx.1, (h.dict h').2.2⟩,
    fun h' => by rw [hd] at h'; cases h'⟩

/-- Storing a variable in the dictionary. -/
theorem Rel.store (h : Rel dig lit st top i σ fns fr d) (hd : st.dict = true) {x : List Char} (o : Obj) :
    Rel dig lit st top i σ fns (fr.set x o) (d.modify i ((x, o) :: ·)) := by
  refine ⟨h.globals, h.top, h.names, fun h' => ⟨(h.dict h').1, (h.dict h').2.1, ?_⟩, fun h' => by rw [hd] at h'; cases h'⟩
  obtain ⟨D, h1, h2⟩ := (h.dict h').2.2
  refine ⟨(x, o) :: D, by rw [List.getElem?_modify_eq, h1]; rfl, fun y hy => ?_⟩
  unfold Frame.set
  rw [List.lookup_cons, List.lookup_cons, h2 y hy]

end

end PythonDice
