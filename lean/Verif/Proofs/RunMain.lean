import Verif.Proofs.RunCall

/-!
# Running the generated text does what the program does: the whole program
-/

namespace PythonDice

open Spec Compiler
open Exec (Val Env Scope Lib FDef globalFind libGlobals builtins callLib app1 app2 execB execS callU runModule unsafeExec dictNew)

/-! ## The library -/

theorem fnRel1 {dig : Char → Bool} {lit : Char → Prop} {st : Style} {s : Sig} {r : Except Err Val} {g : Obj → M Obj}
    (hr : r = .ok (.lib (.atLeast 1 (app1 g)))) (hs : arity s = 1) (hb : ∀ a, Blind (g a)) : FnRel dig lit st s r (some (fn1 g)) := by
  refine ⟨_, hr, fun os => ?_, fun os i hl => ?_⟩
  · rcases os with _ | ⟨a, _ | ⟨b, os⟩⟩
    · exact Blind.throw _
    · exact hb a
    · exact Blind.throw _
  · rw [hs] at hl
    obtain ⟨a, rfl⟩ := List.length_eq_one_iff.1 hl
    unfold extra
    cases st.dict <;> rfl

theorem fnRel2 {dig : Char → Bool} {lit : Char → Prop} {st : Style} {s : Sig} {r : Except Err Val} {g : Obj → Obj → M Obj}
    (hr : r = .ok (.lib (.atLeast 2 (app2 g)))) (hs : arity s = 2) (hb : ∀ a b, Blind (g a b)) : FnRel dig lit st s r (some (fn2 g)) := by
  refine ⟨_, hr, fun os => ?_, fun os i hl => ?_⟩
  · rcases os with _ | ⟨a, _ | ⟨b, _ | ⟨c, os⟩⟩⟩
    · exact Blind.throw _
    · exact Blind.throw _
    · exact hb a b
    · exact Blind.throw _
  · rw [hs] at hl
    obtain ⟨a, b, rfl⟩ := List.length_eq_two.1 hl
    unfold extra
    cases st.dict <;> rfl

theorem fnRelDiv {dig : Char → Bool} {lit : Char → Prop} {st : Style} {s : Sig} {r : Except Err Val} {g : Obj → Obj → M Obj}
    (hd : st.dict = false) (hr : r = .ok (.lib (.exact 2 (app2 g)))) (hs : arity s = 2) (hb : ∀ a b, Blind (g a b)) :
    FnRel dig lit st s r (some (fn2 g)) := by
  refine ⟨_, hr, fun os => ?_, fun os i hl => ?_⟩
  · rcases os with _ | ⟨a, _ | ⟨b, _ | ⟨c, os⟩⟩⟩
    · exact Blind.throw _
    · exact Blind.throw _
    · exact hb a b
    · exact Blind.throw _
  · rw [hs] at hl
    obtain ⟨a, b, rfl⟩ := List.length_eq_two.1 hl
    rw [hd]
    rfl

theorem lookup_none {β : Type} {l : List (List Char × β)} {x : List Char} (h : x ∉ l.map Prod.fst) : l.lookup x = none := by
  induction l with
  | nil => rfl
  | cons a l ih =>
    obtain ⟨y, b⟩ := a
    rw [List.map_cons, List.mem_cons, not_or] at h
    rw [List.lookup_cons, beq_false_of_ne h.1]
    exact ih h.2

theorem globalFind_none {x : List Char} (h1 : x ∉ libGlobals.map Prod.fst) (h2 : x ∉ builtins) : globalFind libGlobals x = .error .name := by
  unfold globalFind
  rw [lookup_none h1]
  have h3 : "len".toList ∈ builtins := by decide +kernel
  dsimp only
  rw [if_neg (by rintro rfl; exact h2 h3), if_neg h2]

/-- The signatures of the library. -/
def libFnSigs : List Sig := libraryFns.map Prod.fst

theorem libFnSigs_ok : ∀ s ∈ libFnSigs, SigOK s := by
  have h : ∀ s ∈ libFnSigs, ∀ o ∈ s, ∀ w, o = some w → w ≠ [] ∧ ∀ c ∈ w, 'a' ≤ c ∧ c ≤ 'z' := by
    have h2 : ∀ s ∈ libFnSigs, ∀ o ∈ s, (o.getD ['a']) ≠ [] ∧ ∀ c ∈ o.getD ['a'], 'a' ≤ c ∧ c ≤ 'z' := by decide +kernel
    intro s hs o ho w hw
    have := h2 s hs o ho
    rwa [hw] at this
  intro s hs w hw
  exact h s hs _ hw w rfl

/-- What is in the library has a taken name, or is one of its functions. -/
theorem libGlobals_names : ∀ x ∈ libGlobals.map Prod.fst, x ∈ takenFns ∨ ∃ s ∈ libFnSigs, x = pyName false s := by
  have h : ∀ x ∈ libGlobals.map Prod.fst, x ∈ takenFns ∨ x ∈ libFnSigs.map (pyName false) := by decide +kernel
  intro x hx
  refine (h x hx).imp id fun hm => ?_
  obtain ⟨s, hs, he⟩ := List.mem_map.1 hm
  exact ⟨s, hs, he.symm⟩

theorem builtins_taken : ∀ x ∈ builtins, x ∈ takenFns := by decide +kernel

theorem prefixed_not_lib (s : Sig) : pyName true s ∉ libGlobals.map Prod.fst ∧ pyName true s ∉ builtins := by
  have h : ∀ x, x ∈ libGlobals.map Prod.fst ∨ x ∈ builtins → x ≠ ['f'] ∧ ¬ ['f', '_'] <+: x := by
    have h1 : ∀ x ∈ libGlobals.map Prod.fst, x ≠ ['f'] ∧ ¬ ['f', '_'] <+: x := by decide +kernel
    have h2 : ∀ x ∈ builtins, x ≠ ['f'] ∧ ¬ ['f', '_'] <+: x := by decide +kernel
    rintro x (hx | hx)
    · exact h1 x hx
    · exact h2 x hx
  have hp : pyName true s = ['f'] ∨ ['f', '_'] <+: pyName true s := by
    unfold pyName
    rw [← join_eq_intercalate]
    cases s with
    | nil => exact .inl rfl
    | cons o s => exact .inr ⟨_, rfl⟩
  constructor
  · intro hm
    rcases hp with hp | hp
    · exact (h _ (.inl hm)).1 hp
    · exact (h _ (.inl hm)).2 hp
  · intro hm
    rcases hp with hp | hp
    · exact (h _ (.inr hm)).1 hp
    · exact (h _ (.inr hm)).2 hp

theorem lookup_sig_none {l : Fns} {s : Sig} (h : s ∉ l.map Prod.fst) : l.lookup s = none := by
  induction l with
  | nil => rfl
  | cons a l ih =>
    obtain ⟨y, b⟩ := a
    rw [List.map_cons, List.mem_cons, not_or] at h
    rw [List.lookup_cons, beq_false_of_ne h.1]
    exact ih h.2

/-- At the beginning. -/
theorem gRel_init {dig : Char → Bool} {lit : Char → Prop} (st : Style) :
    GRel dig lit st libGlobals (if st.rules.lib then libraryFns else []) := by
  refine ⟨fun _ _ => rfl, fun s hs => ?_⟩
  have hl : st.rules.lib = !st.pre := rfl
  rw [hl]
  cases hp : st.pre with
  | true =>
    rw [if_neg (by simp)]
    exact globalFind_none (prefixed_not_lib s).1 (prefixed_not_lib s).2
  | false =>
    rw [if_pos (by rfl)]
    by_cases hm : s ∈ libFnSigs
    · have hdiv : s = [some "true".toList, some "div".toList, none, none] → st.dict = false := by
        intro he
        by_contra hd
        rw [Bool.not_eq_false] at hd
        exact (fnFree_iff.1 hs.2).2.2 ⟨hd, he⟩
      have hm' : s ∈ libraryFns.map Prod.fst := hm
      unfold libraryFns at hm'
      simp only [List.map_cons, List.map_nil, List.mem_cons, List.not_mem_nil, or_false] at hm'
      rcases hm' with rfl | rfl | rfl | rfl | rfl | rfl | rfl | rfl | rfl | rfl | rfl | rfl | rfl
      · exact fnRel1 rfl rfl Blind.absolute
      · exact fnRel2 rfl rfl Blind.contains
      · exact fnRel2 rfl rfl Blind.countIn
      · exact fnRel1 rfl rfl fun d => Blind.explode d
      · exact fnRel2 rfl rfl Blind.highestN
      · exact fnRel2 rfl rfl Blind.lowestN
      · exact fnRel2 rfl rfl Blind.middleN
      · exact fnRel2 rfl rfl Blind.highestOf
      · exact fnRel2 rfl rfl Blind.lowestOf
      · exact fnRel1 rfl rfl Blind.maximumOf
      · exact fnRel1 rfl rfl Blind.reverse
      · exact fnRel1 rfl rfl Blind.sort
      · exact fnRelDiv (hdiv rfl) rfl rfl Blind.trueDiv
    · rw [lookup_sig_none hm]
      have ht := (fnFree_iff.1 hs.2).2.1
      rw [hp] at ht
      refine globalFind_none (fun h => ?_) fun h => ht (builtins_taken _ h)
      rcases libGlobals_names _ h with h | ⟨t, ht', he⟩
      · exact ht h
      · exact hm (by rw [pyName_inj hs.1 (libFnSigs_ok t ht') he]; exact ht')

/-! ## Programs -/

theorem varOK_not_lib {x : List Char} (h : VarOK x) : globalFind libGlobals x = .error .name := by
  have h1 : ∀ x ∈ libGlobals.map Prod.fst, x ∈ takenVars ∨ ∃ c ∈ x, ¬ UpLetter c := by decide +kernel
  have h2 : ∀ x ∈ builtins, ∃ c ∈ x, ¬ UpLetter c := by decide +kernel
  refine globalFind_none (fun hm => ?_) fun hm => ?_
  · rcases h1 x hm with h' | ⟨c, hc, hu⟩
    · exact h.2 h'
    · exact hu (h.1.2 c hc)
  · obtain ⟨c, hc, hu⟩ := h2 x hm
    exact hu (h.1.2 c hc)

/-- The module does what the program does. -/
theorem sim_module {dig : Char → Bool} {lit : Char → Prop} (st : Style) (n : ℕ) (b : Block) (hok : BlockOK dig lit b) (hf : freeB st true b = true)
    (d : Dicts) :
    Sim none d (fun _ _ _ => True) (runModule n (meanP st b))
      (runB st.rules (runCall st.rules n) b ⟨if st.rules.lib then libraryFns else [], ⟨none, [], []⟩⟩) := by
  have hw : ∀ l, Within none l := fun l ns h => by cases h
  unfold runModule meanP
  cases hd : st.dict with
  | false =>
    rw [if_neg (by simp)]
    refine Sim.enter (d1 := d) (fun _ => rfl) (EnvExt.refl _ _) ?_
    have hr : Rel dig lit st true d.length ⟨libGlobals, none⟩ (if st.rules.lib then libraryFns else []) ⟨none, [], []⟩ d :=
      ⟨gRel_init st, rfl, fun l h => (by cases h), fun h => absurd h (by rw [hd]; simp), fun _ x hx => varOK_not_lib hx⟩
    exact Sim.map (fun _ => ()) (sim_B (callSim n) b hok hf (hw _) hr rfl) fun _ _ _ _ _ => trivial
  | true =>
    rw [if_pos rfl]
    refine Sim.enter (d1 := d ++ [[]])
      (m1 := (fun _ => ()) <$> execB (callU n) (meanB st b) (Scope.set ⟨libGlobals, none⟩ "vars".toList (.dict d.length))) (fun w => ?_) ?_ ?_
    · have e1 : execB (callU n) (.cons (.newDict "vars".toList) (meanB st b)) ⟨libGlobals, none⟩ =
          dictNew >>= fun i => execB (callU n) (meanB st b) (Scope.set ⟨libGlobals, none⟩ "vars".toList (.dict i)) := by
        rw [execB, execS]
        simp only [bind_assoc, pure_bind]
      rw [e1, bind_assoc]
      rfl
    · refine ⟨by simp, fun j hj _ => ?_⟩
      rw [List.getElem?_append_left hj]
    · have hr : Rel dig lit st true d.length (Scope.set ⟨libGlobals, none⟩ "vars".toList (.dict d.length))
          (if st.rules.lib then libraryFns else []) ⟨none, [], []⟩ (d ++ [[]]) := by
        refine ⟨(gRel_init st).set (σ := ⟨libGlobals, none⟩) (.inr rfl) _, rfl, fun l h => (by cases h), fun _ => ⟨rfl, ?_, [], by simp, fun _ _ => rfl⟩,
          fun h => absurd h (by rw [hd]; simp)⟩
        exact Scope.find_set_self _ fun l h => by cases h
      exact Sim.map (fun _ => ()) (sim_B (callSim n) b hok hf (hw _) hr rfl) fun _ _ _ _ _ => trivial

theorem outs_withDicts (w : World) (d : Dicts) : (w.withDicts d).outs = w.outs := rfl

/-- Running the text gives what the program gives. -/
theorem unsafeExec_run {dig : Char → Bool} {lit : Char → Prop} (st : Style) (n : ℕ) (b : Block) (hok : BlockOK dig lit b)
    (hf : freeB st true b = true) (w : World) :
    ∃ d, unsafeExec n (meanP st b) w = ((run st.rules n b w).1, (run st.rules n b w).2.withDicts d) := by
  have h := sim_module st n b hok hf w.dicts { w with outs := [] }
  have e1 : unsafeExec n (meanP st b) w = M.bind (runModule n (meanP st b)) (fun _ => M.get >>= fun w => pure w.outs) { w with outs := [] } := rfl
  have e2 : run st.rules n b w = M.bind (runB st.rules (runCall st.rules n) b ⟨if st.rules.lib then libraryFns else [], ⟨none, [], []⟩⟩)
      (fun _ => M.get >>= fun w => pure w.outs) { w with outs := [] } := rfl
  have e3 : World.withDicts { w with outs := [] } w.dicts = { w with outs := [] } := rfl
  rw [e1, e2]
  rw [e3] at h
  unfold M.bind
  unfold Match at h
  rcases hr : runB st.rules (runCall st.rules n) b ⟨if st.rules.lib then libraryFns else [], ⟨none, [], []⟩⟩ { w with outs := [] } with ⟨r, w'⟩
  rw [hr] at h
  cases r with
  | error e =>
    obtain ⟨d', h⟩ := h
    exact ⟨d', by rw [h]⟩
  | ok a =>
    obtain ⟨_, d', h, _, _⟩ := h
    exact ⟨d', by rw [h]; rfl⟩

end PythonDice
