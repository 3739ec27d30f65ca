import Verif.Proofs.Resolver

/-!
# C36, C37, C38: function names, collisions, unknown functions, missing output
-/

namespace PythonDice

open Spec Compiler

/-! ## C36 -/

/-- **C36** (src/parser/python_resolver.py:151-186, 263-279): a call is linked to a definition by its Python name exactly if both have
the same words and argument positions, with and without the prefix. -/
theorem C36_link (fl : Flags) (d : List DefPart) (cs : CallParts) (hd : SigOK (defSig d)) (hc : SigOK (callSig cs)) :
    mangle fl (d.map DefPart.name) = mangle fl cs.names ↔ defSig d = callSig cs := by
  rw [def_names, call_names]
  constructor
  · exact mangle_inj fl hd hc
  · intro h; rw [h]

/-- **C36**: two definitions share a Python name exactly if they have the same signature. -/
theorem C36_definitions (fl : Flags) (d e : List DefPart) (hd : SigOK (defSig d)) (he : SigOK (defSig e)) :
    mangle fl (d.map DefPart.name) = mangle fl (e.map DefPart.name) ↔ defSig d = defSig e := by
  rw [def_names, def_names]
  constructor
  · exact mangle_inj fl hd he
  · intro h; rw [h]

/-- The Python name of a library function is the one the generator looks for. -/
theorem library_names (fl : Flags) (h : fl.libConflict = false) : library = librarySigs.map fun s => mangle fl (sigParts s) := by
  have : ∀ l, mangle fl l = join "_".toList l := by intro l; unfold mangle; rw [h]; rfl
  simp only [this]
  decide

theorem librarySigs_ok : ∀ s ∈ librarySigs, SigOK s := by
  intro s hs w hw
  have : ∀ s ∈ librarySigs, ∀ o ∈ s, o = none ∨ (o.getD [] ≠ [] ∧ ∀ c ∈ o.getD [], LowLetter c) := by decide
  rcases this s hs _ hw with h | h
  · cases h
  · exact h

/-- **C36**: a call reaches a library function exactly if it has its signature. -/
theorem C36_library (fl : Flags) (hfl : fl.libConflict = false) (cs : CallParts) (hc : SigOK (callSig cs)) :
    mangle fl cs.names ∈ library ↔ callSig cs ∈ librarySigs := by
  rw [call_names, library_names fl hfl, List.mem_map]
  constructor
  · rintro ⟨s, hs, h⟩
    rw [← mangle_inj fl (librarySigs_ok s hs) hc h]
    exact hs
  · intro h
    exact ⟨_, h, rfl⟩

/-! ## The generator's checks -/

/-- Programs with names as the lexer gives them. -/
def NamesOK (p : Block) : Prop := (∀ s, Calls p s → SigOK s) ∧ ∀ s, Defines p s → SigOK s

theorem resolveOnce_ok {fl : Flags} {p : Block} {t : List Char} (h : resolveOnce fl p = .ok t) :
    (∃ ls, p.emit fl = .ok ls ∧ t = (if fl.nonLocal then "vars = {}\n\n".toList else []) ++ blockText ls ++ "\n".toList) ∧
      (fl.existCheck = true → ∀ f ∈ p.calls fl, f ∈ defined fl p) ∧ p.outputs ≠ 0 := by
  unfold resolveOnce at h
  cases he : p.emit fl with
  | error e => rw [he] at h; cases h
  | ok ls =>
    rw [he] at h
    simp only [bind, Except.bind] at h
    by_cases h1 : fl.existCheck = true ∧ ¬ ∀ f ∈ p.calls fl, f ∈ defined fl p
    · rw [if_pos h1] at h; cases h
    · rw [if_neg h1] at h
      by_cases h2 : p.outputs = 0
      · rw [if_pos h2] at h; cases h
      · rw [if_neg h2] at h
        refine ⟨⟨ls, rfl, ?_⟩, ?_, h2⟩
        · injection h with h; exact h.symm
        · intro hx
          by_contra hc
          exact h1 ⟨hx, hc⟩

/-- The flags with the prefix turned on. -/
def prefixed (fl : Flags) : Flags := { fl with libConflict := true }

/-- The flags of the pass that generates the text: with the prefix if one of the protected names is defined. -/
def passFlags (fl : Flags) (p : Block) : Flags := if collides fl p then prefixed fl else fl

theorem passFlags_nonLocal (fl : Flags) (p : Block) : (passFlags fl p).nonLocal = fl.nonLocal := by
  unfold passFlags
  split <;> rfl

/-- Names with the prefix begin with `f`. -/
theorem mangle_prefixed (fl : Flags) (h : fl.libConflict = true) (l : List Text) : ∃ rest, mangle fl l = 'f' :: rest := by
  unfold mangle
  rw [h]
  cases l with
  | nil => exact ⟨[], rfl⟩
  | cons a l => exact ⟨_, rfl⟩

theorem not_collides_prefixed (fl : Flags) (h : fl.libConflict = true) (p : Block) : ¬ collides fl p := by
  rintro ⟨f, hf, hd⟩
  rcases List.mem_append.1 hd with hd | hd
  · exact absurd hd ((by decide : ∀ f ∈ mayCollide, f ∉ library) f hf)
  · obtain ⟨s, _, rfl⟩ := (mem_defs fl p f).1 hd
    obtain ⟨rest, hr⟩ := mangle_prefixed fl h (sigParts s)
    rw [hr] at hf
    have : ∀ f ∈ mayCollide, f.head? ≠ some 'f' := by decide
    exact this _ hf rfl

theorem resolve_eq (fl : Flags) (p : Block) : resolve fl p =
    if collides fl p then (resolveOnce fl p >>= fun _ => (resolveOnce (prefixed fl) p).map cleanUp)
    else (resolveOnce fl p).map cleanUp := by
  unfold resolve
  by_cases hc : collides fl p
  · have hl : ¬ fl.libConflict = true := fun h => not_collides_prefixed fl h p hc
    simp only [if_pos hc, if_neg hl]
    have hn := not_collides_prefixed (prefixed fl) rfl p
    unfold prefixed at hn ⊢
    simp only [if_neg hn]
    cases resolveOnce fl p with
    | error e => rfl
    | ok r => simp only [bind, Except.bind]; cases resolveOnce { fl with libConflict := true } p <;> rfl
  · simp only [if_neg hc]
    cases resolveOnce fl p <;> rfl

theorem map_ok {α β : Type} {f : α → β} {x : Except Err α} {b : β} (h : x.map f = .ok b) : ∃ a, x = .ok a ∧ b = f a := by
  cases x with
  | error e => cases h
  | ok a => injection h with h; exact ⟨a, rfl, h.symm⟩

/-- Success comes from one of the two passes, the second only after a collision. -/
theorem resolve_ok {fl : Flags} {p : Block} {t : List Char} (h : resolve fl p = .ok t) :
    ∃ fl' r, (fl' = fl ∧ ¬ collides fl p ∨ fl' = prefixed fl ∧ collides fl p) ∧ resolveOnce fl' p = .ok r ∧ t = cleanUp r := by
  rw [resolve_eq] at h
  by_cases hc : collides fl p
  · rw [if_pos hc] at h
    cases hr : resolveOnce fl p with
    | error e => rw [hr] at h; cases h
    | ok r =>
      rw [hr] at h
      obtain ⟨a, ha, rfl⟩ := map_ok (show (resolveOnce (prefixed fl) p).map cleanUp = .ok t from h)
      exact ⟨_, a, Or.inr ⟨rfl, hc⟩, ha, rfl⟩
  · rw [if_neg hc] at h
    obtain ⟨a, ha, rfl⟩ := map_ok h
    exact ⟨_, a, Or.inl ⟨rfl, hc⟩, ha, rfl⟩

/-- The pass that generates the text. -/
theorem resolve_pass {fl : Flags} {p : Block} {t : List Char} (h : resolve fl p = .ok t) :
    ∃ r, resolveOnce (passFlags fl p) p = .ok r ∧ t = cleanUp r := by
  obtain ⟨fl', r, hfl, hr, ht⟩ := resolve_ok h
  refine ⟨r, ?_, ht⟩
  unfold passFlags
  rcases hfl with ⟨rfl, hc⟩ | ⟨rfl, hc⟩
  · rw [if_neg hc]; exact hr
  · rw [if_pos hc]; exact hr

/-! ## C38 -/

theorem calls_defined {fl : Flags} {p : Block} (hp : NamesOK p) (h : ∀ f ∈ p.calls fl, f ∈ defined fl p) :
    ∀ s, Calls p s → Defines p s ∨ (s ∈ librarySigs ∧ fl.libConflict = false) := by
  intro s hs
  have hm := h _ ((mem_calls fl p _).2 ⟨s, hs, rfl⟩)
  rcases List.mem_append.1 hm with hm | hm
  · right
    cases hl : fl.libConflict with
    | true =>
      obtain ⟨rest, hr⟩ := mangle_prefixed fl hl (sigParts s)
      rw [hr] at hm
      have : ∀ f ∈ library, f.head? ≠ some 'f' := by decide
      exact absurd rfl (this _ hm)
    | false =>
      rw [library_names fl hl, List.mem_map] at hm
      obtain ⟨s', hs', h'⟩ := hm
      rw [← mangle_inj fl (librarySigs_ok s' hs') (hp.1 s hs) h']
      exact ⟨hs', rfl⟩
  · left
    obtain ⟨s', hs', h'⟩ := (mem_defs fl p _).1 hm
    rw [← mangle_inj fl (hp.2 s' hs') (hp.1 s hs) h']
    exact hs'

theorem defined_calls {fl : Flags} {p : Block} (h : ∀ s, Calls p s → Defines p s ∨ (s ∈ librarySigs ∧ fl.libConflict = false)) :
    ∀ f ∈ p.calls fl, f ∈ defined fl p := by
  intro f hf
  obtain ⟨s, hs, rfl⟩ := (mem_calls fl p f).1 hf
  rcases h s hs with h | ⟨h, hl⟩
  · exact List.mem_append_right _ ((mem_defs fl p _).2 ⟨s, h, rfl⟩)
  · refine List.mem_append_left _ ?_
    rw [library_names fl hl]
    exact List.mem_map_of_mem h

/-- **C38** (src/parser/python_resolver.py:64-85): a program that compiles outputs something, and with the existence check on, every
function it calls, anywhere, is defined in it or belongs to the library. -/
theorem C38_accepted (fl : Flags) (p : Block) (hp : NamesOK p) (t : List Char) (h : resolve fl p = .ok t) :
    Outputs p ∧ (fl.existCheck = true → ∀ s, Calls p s → Defines p s ∨ s ∈ librarySigs) := by
  obtain ⟨fl', r, hfl, hr, _⟩ := resolve_ok h
  obtain ⟨_, h2, h3⟩ := resolveOnce_ok hr
  refine ⟨(outputs_iff p).1 h3, ?_⟩
  intro hx s hs
  have hx' : fl'.existCheck = true := by
    rcases hfl with ⟨rfl, _⟩ | ⟨rfl, _⟩ <;> exact hx
  exact (calls_defined hp (h2 hx') s hs).imp id And.left

/-- The text of a program can be generated: duplicate parameters can be renamed (see C41). -/
def Emits (fl : Flags) (p : Block) : Prop := ∃ ls, p.emit fl = .ok ls

/-- **C38**: the exact condition of acceptance for programs that define none of the protected names. -/
theorem C38_exactly (fl : Flags) (p : Block) (hp : NamesOK p) (hl : fl.libConflict = false) (hc : ¬ collides fl p) :
    (∃ t, resolve fl p = .ok t) ↔
      Emits fl p ∧ Outputs p ∧ (fl.existCheck = true → ∀ s, Calls p s → Defines p s ∨ s ∈ librarySigs) := by
  constructor
  · rintro ⟨t, h⟩
    obtain ⟨fl', r, hfl, hr, _⟩ := resolve_ok h
    have hfl' : fl' = fl := by
      rcases hfl with ⟨rfl, _⟩ | ⟨_, h⟩
      · rfl
      · exact absurd h hc
    subst hfl'
    obtain ⟨⟨ls, h1, _⟩, _, _⟩ := resolveOnce_ok hr
    exact ⟨⟨ls, h1⟩, C38_accepted _ p hp t h⟩
  · rintro ⟨⟨ls, h1⟩, h2, h3⟩
    rw [resolve_eq, if_neg hc]
    refine ⟨cleanUp ((if fl.nonLocal then "vars = {}\n\n".toList else []) ++ blockText ls ++ "\n".toList), ?_⟩
    have hd : ¬ (fl.existCheck = true ∧ ¬ ∀ f ∈ p.calls fl, f ∈ defined fl p) := by
      rintro ⟨hx, hn⟩
      exact hn (defined_calls fun s hs => (h3 hx s hs).imp id fun h => ⟨h, hl⟩)
    have ho := (outputs_iff p).2 h2
    unfold resolveOnce
    simp only [h1, bind, Except.bind, if_neg hd, if_neg ho]
    rfl

/-- **C38**: with the prefix, exactly the functions the program itself defines may be called. -/
theorem C38_exactly_prefixed (fl : Flags) (p : Block) (hp : NamesOK p) (hl : fl.libConflict = true) :
    (∃ t, resolve fl p = .ok t) ↔ Emits fl p ∧ Outputs p ∧ (fl.existCheck = true → ∀ s, Calls p s → Defines p s) := by
  have hc := not_collides_prefixed fl hl p
  constructor
  · rintro ⟨t, h⟩
    obtain ⟨fl', r, hfl, hr, _⟩ := resolve_ok h
    have hfl' : fl' = fl := by
      rcases hfl with ⟨rfl, _⟩ | ⟨_, h⟩
      · rfl
      · exact absurd h hc
    subst hfl'
    obtain ⟨⟨ls, h1, _⟩, h2, _⟩ := resolveOnce_ok hr
    refine ⟨⟨ls, h1⟩, (C38_accepted _ p hp t h).1, fun hx s hs => ?_⟩
    rcases calls_defined hp (h2 hx) s hs with h | ⟨_, h⟩
    · exact h
    · rw [hl] at h; cases h
  · rintro ⟨⟨ls, h1⟩, h2, h3⟩
    rw [resolve_eq, if_neg hc]
    refine ⟨cleanUp ((if fl.nonLocal then "vars = {}\n\n".toList else []) ++ blockText ls ++ "\n".toList), ?_⟩
    have hd : ¬ (fl.existCheck = true ∧ ¬ ∀ f ∈ p.calls fl, f ∈ defined fl p) := by
      rintro ⟨hx, hn⟩
      exact hn (defined_calls fun s hs => Or.inl (h3 hx s hs))
    have ho := (outputs_iff p).2 h2
    unfold resolveOnce
    simp only [h1, bind, Except.bind, if_neg hd, if_neg ho]
    rfl

/-! ## C37 -/

/-- **C37** (src/parser/python_resolver.py:75-80): the assertion "this should not happen" never fails. -/
theorem C37_assertion (fl : Flags) (p : Block) : resolve fl p ≠ .error .libConflict := by
  have once : ∀ fl, resolveOnce fl p ≠ .error .libConflict := by
    intro fl h
    unfold resolveOnce at h
    cases he : p.emit fl with
    | ok ls =>
      rw [he] at h
      simp only [bind, Except.bind] at h
      split_ifs at h <;> cases h
    | error e =>
      rw [he] at h
      rcases block_emitCases fl p with ⟨⟨t, ht⟩, _⟩ | ⟨ht, _⟩
      · rw [he] at ht; cases ht
      · rw [he] at ht
        cases ht
        cases h
  rw [resolve_eq]
  split_ifs with hc
  · cases h : resolveOnce fl p with
    | error e => intro h'; exact once fl (by rw [h]; exact h')
    | ok r =>
      intro h'
      cases h2 : resolveOnce (prefixed fl) p with
      | error e => rw [h2] at h'; exact once _ (by rw [h2]; exact h')
      | ok r' => rw [h2] at h'; cases h'
  · cases h2 : resolveOnce fl p with
    | error e => intro h'; exact once _ (by rw [h2]; exact h')
    | ok r' => intro h'; cases h'

/-- The names the generated code uses (src/parser/python_resolver.py:10-19, 66-279). -/
def runtimeNames : List (List Char) :=
  ["output".toList, "get_seq".toList, "roll".toList, "myrange".toList, "anydice_casting".toList, "settings_set".toList,
    "myMatmul".toList, "myLen".toList, "myInvert".toList, "myAnd".toList, "myOr".toList, "len".toList, "vars".toList,
    "T_S".toList, "T_N".toList, "T_D".toList]

/-- **C37**, what holds: in the generated program no function of the user has the name of a function of the runtime, except that `len`,
`get_seq` and `vars` are not protected unless some other name collides.  Missing: protection of these three, see the counterexamples. -/
theorem C37_runtime_partial (fl : Flags) (p : Block) (hp : NamesOK p) (t : List Char) (h : resolve fl p = .ok t) :
    ∃ fl' r, (fl' = fl ∨ fl' = prefixed fl) ∧ resolveOnce fl' p = .ok r ∧ t = cleanUp r ∧ ∀ s, Defines p s →
      mangle fl' (sigParts s) ∈ runtimeNames →
        fl'.libConflict = false ∧ mangle fl' (sigParts s) ∈ ["len".toList, "get_seq".toList, "vars".toList] := by
  obtain ⟨fl', r, hfl, hr, ht⟩ := resolve_ok h
  refine ⟨fl', r, hfl.imp And.left And.left, hr, ht, ?_⟩
  intro s hs hm
  cases hl : fl'.libConflict with
  | true =>
    obtain ⟨rest, he⟩ := mangle_prefixed fl' hl (sigParts s)
    rw [he] at hm
    have : ∀ f ∈ runtimeNames, f.head? ≠ some 'f' := by decide
    exact absurd rfl (this _ hm)
  | false =>
    refine ⟨rfl, ?_⟩
    have hnc : ¬ collides fl' p := by
      rcases hfl with ⟨rfl, h⟩ | ⟨rfl, _⟩
      · exact h
      · cases hl
    have hd : mangle fl' (sigParts s) ∉ mayCollide := fun h =>
      hnc ⟨_, h, List.mem_append_right _ ((mem_defs fl' p _).2 ⟨s, hs, rfl⟩)⟩
    have hchars : ∀ c ∈ mangle fl' (sigParts s), LowLetter c ∨ c = 'X' ∨ c = '_' := by
      have hj : ∀ l : List Text, (∀ q ∈ l, ∀ c ∈ q, LowLetter c ∨ c = 'X' ∨ c = '_') →
          ∀ c ∈ join "_".toList l, LowLetter c ∨ c = 'X' ∨ c = '_' := by
        intro l
        induction l with
        | nil => intro _ c hc; cases hc
        | cons q l ih =>
          intro hq c hc
          cases l with
          | nil => exact hq q List.mem_cons_self c hc
          | cons q' l =>
            rw [join, List.append_assoc] at hc
            rcases List.mem_append.1 hc with hc | hc
            · exact hq q List.mem_cons_self c hc
            · rcases List.mem_append.1 hc with hc | hc
              · exact Or.inr (Or.inr (List.mem_singleton.1 hc))
              · exact ih (fun x hx => hq x (List.mem_cons_of_mem _ hx)) c hc
      unfold mangle
      rw [hl]
      refine hj _ ?_
      intro q hq c hc
      obtain ⟨o, ho, rfl⟩ := List.mem_map.1 hq
      cases o with
      | none => exact Or.inr (Or.inl (List.mem_singleton.1 hc))
      | some w => exact Or.inl ((hp.2 s hs w ho).2 c hc)
    have key : ∀ f ∈ runtimeNames, f ∉ mayCollide → (∀ c ∈ f, LowLetter c ∨ c = 'X' ∨ c = '_') →
        f ∈ ["len".toList, "get_seq".toList, "vars".toList] := by
      decide
    exact key _ hm hd hchars

/-- **C37**: no function of the user has one of the protected names in the generated program. -/
theorem C37_protected (fl : Flags) (p : Block) (t : List Char) (h : resolve fl p = .ok t) :
    ∃ fl' r, (fl' = fl ∨ fl' = prefixed fl) ∧ resolveOnce fl' p = .ok r ∧ t = cleanUp r ∧ ∀ s, Defines p s →
      mangle fl' (sigParts s) ∉ mayCollide := by
  obtain ⟨fl', r, hfl, hr, ht⟩ := resolve_ok h
  refine ⟨fl', r, hfl.imp And.left And.left, hr, ht, ?_⟩
  intro s hs hm
  have hc : collides fl' p := ⟨_, hm, List.mem_append_right _ ((mem_defs fl' p _).2 ⟨s, hs, rfl⟩)⟩
  rcases hfl with ⟨rfl, h⟩ | ⟨rfl, _⟩
  · exact h hc
  · exact not_collides_prefixed _ rfl p hc

/-- The sequence `{1, 2}`. -/
def seq12 : Expr := .seq (.expr (.num "1".toList) (.expr (.num "2".toList) .nil))

/-- **C37** fails: `function: len { result: 5 } output #{1, 2}` compiles to a program in which `len` is the user's function. -/
theorem C37_len_counterexample :
    resolve {} (.cons (.function [.word "len".toList] (.cons (.result (.num "5".toList)) .nil)) (.cons (.output (.hash seq12)) .nil)) =
      .ok "@anydice_casting()\ndef len():\n  return 5\n\noutput(len(get_seq([1, 2])))\n".toList := by
  decide +kernel

/-- **C37** fails: `function: get seq { result: 5 } output {1, 2}`. -/
theorem C37_get_seq_counterexample :
    resolve {} (.cons (.function [.word "get".toList, .word "seq".toList] (.cons (.result (.num "5".toList)) .nil))
        (.cons (.output seq12) .nil)) =
      .ok "@anydice_casting()\ndef get_seq():\n  return 5\n\noutput(get_seq([1, 2]))\n".toList := by
  decide +kernel

/-- A call `[absolute 3]`. -/
def absolute3 : Expr := .call (.word "absolute".toList (.arg (.num "3".toList) .nil))

/-- **C37** fails: `function: roll { result: 5 } output [absolute 3]` is rejected, though without the function `roll` it compiles: the
second pass prefixes calls of library functions too. -/
theorem C37_library_counterexample :
    resolve {} (.cons (.function [.word "roll".toList] (.cons (.result (.num "5".toList)) .nil)) (.cons (.output absolute3) .nil)) =
        .error .unknownFunction ∧
      resolve {} (.cons (.output absolute3) .nil) = .ok "output(absolute_X(3))\n".toList := by
  decide +kernel

/-- **C37** fails for variables: `T_N: 3 function: twice A:n { result: 2*A } output [twice 4]` binds `T_N`, which the generated
annotation then uses. -/
theorem C37_variable_counterexample :
    resolve {} (.cons (.assign "T_N".toList (.num "3".toList))
        (.cons (.function [.word "twice".toList, .typed "A".toList "n".toList]
          (.cons (.result (.bin .mul (.num "2".toList) (.var "A".toList))) .nil))
        (.cons (.output (.call (.word "twice".toList (.arg (.num "4".toList) .nil)))) .nil))) =
      .ok "T_N = 3\n@anydice_casting()\ndef twice_X(A: T_N):\n  return 2 * A\n\noutput(twice_X(4))\n".toList := by
  decide +kernel

/-- A collision that is resolved: `function: roll { result: 5 } output [roll]`. -/
example : resolve {} (.cons (.function [.word "roll".toList] (.cons (.result (.num "5".toList)) .nil))
      (.cons (.output (.call (.word "roll".toList .nil))) .nil)) =
    .ok "@anydice_casting()\ndef f_roll():\n  return 5\n\noutput(f_roll())\n".toList := by
  decide +kernel

/-- Unknown functions and missing outputs. -/
example : resolve {} (.cons (.output (.call (.word "list".toList .nil))) .nil) = .error .unknownFunction ∧
    resolve { existCheck := false } (.cons (.output (.call (.word "list".toList .nil))) .nil) = .ok "output(list())\n".toList ∧
    resolve {} (.cons (.assign "A".toList (.num "3".toList)) .nil) = .error .noOutput := by
  decide +kernel

/-- The call `[highest X of 3d6]` of a definition `function: highest N:n of D:d` has its name; one with the words in another order
does not. -/
example : mangle {} ([DefPart.word "highest".toList, .typed "N".toList "n".toList, .word "of".toList, .param "D".toList].map
      DefPart.name) = "highest_X_of_X".toList ∧
    mangle { libConflict := true } (CallParts.names (.word "highest".toList (.word "of".toList (.arg seq12 (.arg seq12 .nil))))) =
      "f_highest_of_X_X".toList ∧
    SigOK [some "highest".toList, none, some "of".toList, none] := by
  refine ⟨by decide +kernel, by decide +kernel, librarySigs_ok _ (by decide)⟩

/-! ## C41 -/

/-- **C41** (src/parser/python_resolver.py:173-174, 289-295), what holds: if every parameter that repeats an earlier name has a type,
renaming succeeds; the names of the result are pairwise different, the first occurrence of every name is kept as it is, and later ones
are replaced by `dummy` with their position, with the same type.  Missing: repeated parameters without a type, see below. -/
theorem C41_renamed_partial (ps : List Param) (hp : ParamsOK ps) (ht : RepeatsTyped ps) :
    ∃ qs, fixDups ps = .ok (qs, qs.map Param.name) ∧ qs.length = ps.length ∧ (qs.map Param.name).Nodup ∧
      ∀ k (hk : k < ps.length), qs[k]? = some
        (if ps[k].name ∈ (ps.take k).map Param.name then ⟨"dummy".toList ++ (toString k).toList, ps[k].type⟩ else ps[k]) := by
  refine ⟨renamed [] 0 ps, (fixDups_ok ps hp).1 ht, renamed_length _ _ _, (renamed_names_nodup ps [] 0 hp).1, ?_⟩
  intro k hk
  rw [renamed_getElem [] 0 ps k hk]
  simp only [List.not_mem_nil, false_or, Nat.zero_add]
  rfl

/-- **C41**: without a type on a repeated parameter, compiling raises `IndexError`. -/
theorem C41_untyped (ps : List Param) (hp : ParamsOK ps) (ht : ¬ RepeatsTyped ps) : fixDups ps = .error .indexError :=
  (fixDups_ok ps hp).2 ht

/-- **C41** fails: `function: f A A { result: A } output [f 1 2]`. -/
theorem C41_counterexample :
    resolve {} (.cons (.function [.word "f".toList, .param "A".toList, .param "A".toList] (.cons (.result (.var "A".toList)) .nil))
      (.cons (.output (.call (.word "f".toList (.arg (.num "1".toList) (.arg (.num "2".toList) .nil))))) .nil)) =
    .error .indexError := by
  decide +kernel

/-- **C41** at the level of programs: text is generated exactly if in every definition each repeated parameter has a type. -/
theorem C41_programs (fl : Flags) (p : Block) (hp : ∀ d b, StmtIn (.function d b) p → ParamsOK (params d)) :
    Emits fl p ↔ ∀ d b, StmtIn (.function d b) p → RepeatsTyped (params d) := by
  have fix : ∀ d b, StmtIn (.function d b) p → (Fixable d ↔ RepeatsTyped (params d)) := by
    intro d b h
    have := fixDups_ok _ (hp d b h)
    constructor
    · intro hf
      by_contra hn
      exact not_fixable (this.2 hn) hf
    · intro ht
      exact ⟨_, this.1 ht⟩
  rcases block_emitCases fl p with ⟨ht, hf⟩ | ⟨he, d, b, h, hf⟩
  · exact ⟨fun _ d b h => (fix d b h).1 (hf d b h), fun _ => ht⟩
  · constructor
    · rintro ⟨ls, hl⟩
      rw [he] at hl
      cases hl
    · intro h'
      exact absurd ((fix d b h).2 (h' d b h)) hf

/-- `A:n B:s A:d A:foo` -/
example : fixDups (params [.typed "A".toList "n".toList, .typed "B".toList "s".toList, .typed "A".toList "d".toList,
      .typed "A".toList "foo".toList]) =
    .ok ([⟨"A".toList, some "T_N".toList⟩, ⟨"B".toList, some "T_S".toList⟩, ⟨"dummy2".toList, some "T_D".toList⟩,
      ⟨"dummy3".toList, some "foo".toList⟩], ["A".toList, "B".toList, "dummy2".toList, "dummy3".toList]) := by
  decide +kernel

/-- The first occurrence needs no type. -/
example : RepeatsTyped [⟨"A".toList, none⟩, ⟨"A".toList, some "T_D".toList⟩] := by
  intro a p b h hm
  match a, h with
  | [], h => cases hm
  | [q], h =>
    simp only [List.cons_append, List.nil_append, List.cons.injEq] at h
    rw [← h.2.1]
    exact Option.some_ne_none _
  | q :: q' :: a, h => simp at h

end PythonDice
