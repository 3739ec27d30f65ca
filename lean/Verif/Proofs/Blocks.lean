import Verif.Proofs.Resolver
import Verif.Proofs.Lexer
import Verif.Spec.Python

/-!
# Lemmas on lines, indentation and blocks (C40)
-/

namespace PythonDice.Compiler

open Spec Spec.Py

/-! ## Lines -/

theorem lines_ne (s : Text) : lines s ≠ [] := by
  cases s with
  | nil => simp [lines]
  | cons c s =>
    unfold lines
    split
    · simp
    · split <;> simp

theorem lines_newline (s : Text) : lines ('\n' :: s) = [] :: lines s := by rw [lines, if_pos rfl]

theorem lines_cons {c : Char} (h : c ≠ '\n') (s : Text) : ∃ l ls, lines s = l :: ls ∧ lines (c :: s) = (c :: l) :: ls := by
  cases hs : lines s with
  | nil => exact absurd hs (lines_ne s)
  | cons l ls => exact ⟨l, ls, rfl, by rw [lines, if_neg h, hs]⟩

theorem lines_append (a b : Text) : lines (a ++ '\n' :: b) = lines a ++ lines b := by
  induction a with
  | nil => rw [List.nil_append, lines_newline]; rfl
  | cons c a ih =>
    by_cases hc : c = '\n'
    · subst hc
      rw [List.cons_append, lines_newline, lines_newline, ih]; rfl
    · obtain ⟨l, ls, h1, h2⟩ := lines_cons hc a
      obtain ⟨l', ls', h3, h4⟩ := lines_cons hc (a ++ '\n' :: b)
      rw [List.cons_append, h4, h2]
      rw [ih, h1, List.cons_append] at h3
      cases h3
      rfl

theorem lines_single {s : Text} (h : '\n' ∉ s) : lines s = [s] := by
  induction s with
  | nil => rfl
  | cons c s ih =>
    have hc : c ≠ '\n' := fun h' => h (by simp [h'])
    obtain ⟨l, ls, h1, h2⟩ := lines_cons hc s
    rw [ih fun h' => h (List.mem_cons_of_mem _ h')] at h1
    cases h1
    exact h2

/-- The first line of a text, when it is known not to end inside a prefix. -/
theorem lines_first {a : Text} (h : '\n' ∉ a) (b : Text) : lines (a ++ '\n' :: b) = a :: lines b := by
  rw [lines_append, lines_single h]; rfl

theorem lines_last (a : Text) : lines (a ++ ['\n']) = lines a ++ [[]] := lines_append a []

theorem not_mem_lines {s : Text} : ∀ l ∈ lines s, '\n' ∉ l := by
  induction s with
  | nil => intro l hl; simp [lines] at hl; simp [hl]
  | cons c s ih =>
    intro l hl
    by_cases hc : c = '\n'
    · subst hc
      rw [lines_newline] at hl
      rcases List.mem_cons.1 hl with rfl | hl
      · simp
      · exact ih l hl
    · obtain ⟨l', ls, h1, h2⟩ := lines_cons hc s
      rw [h2] at hl
      rw [h1] at ih
      rcases List.mem_cons.1 hl with rfl | hl
      · simp only [List.mem_cons, not_or]
        exact ⟨Ne.symm hc, ih l' List.mem_cons_self⟩
      · exact ih l (List.mem_cons_of_mem _ hl)

theorem mem_lines {s : Text} : ∀ l ∈ lines s, ∀ c ∈ l, c ∈ s := by
  induction s with
  | nil => intro l hl; simp [lines] at hl; simp [hl]
  | cons c s ih =>
    intro l hl x hx
    by_cases hc : c = '\n'
    · subst hc
      rw [lines_newline] at hl
      rcases List.mem_cons.1 hl with rfl | hl
      · cases hx
      · exact List.mem_cons_of_mem _ (ih l hl x hx)
    · obtain ⟨l', ls, h1, h2⟩ := lines_cons hc s
      rw [h2] at hl
      rw [h1] at ih
      rcases List.mem_cons.1 hl with rfl | hl
      · rcases List.mem_cons.1 hx with rfl | hx
        · exact List.mem_cons_self
        · exact List.mem_cons_of_mem _ (ih l' List.mem_cons_self x hx)
      · exact List.mem_cons_of_mem _ (ih l (List.mem_cons_of_mem _ hl) x hx)

theorem join_cons (sep p : Text) {ps : List Text} (h : ps ≠ []) : join sep (p :: ps) = p ++ sep ++ join sep ps := by
  cases ps with
  | nil => exact absurd rfl h
  | cons q ps => rfl

theorem lines_join (ls : List Text) (h : ls ≠ []) : lines (join "\n".toList ls) = ls.flatMap lines := by
  induction ls with
  | nil => exact absurd rfl h
  | cons p ps ih =>
    by_cases hp : ps = []
    · subst hp; simp [join]
    · rw [join_cons _ _ hp, show p ++ "\n".toList ++ join "\n".toList ps = p ++ '\n' :: join "\n".toList ps by simp, lines_append,
        ih hp, List.flatMap_cons]

theorem lines_join' (ls : List Text) (h : ls ≠ []) (h' : ∀ l ∈ ls, '\n' ∉ l) : lines (join "\n".toList ls) = ls := by
  rw [lines_join ls h]
  clear h
  induction ls with
  | nil => rfl
  | cons p ps ih =>
    rw [List.flatMap_cons, lines_single (h' p List.mem_cons_self), ih fun l hl => h' l (List.mem_cons_of_mem _ hl)]
    rfl

theorem lines_indent (s : Text) : lines (indent s) = (lines s).map fun x => "  ".toList ++ x := by
  unfold indent
  apply lines_join'
  · simpa using lines_ne s
  · intro l hl
    obtain ⟨x, hx, rfl⟩ := List.mem_map.1 hl
    simpa using not_mem_lines x hx

theorem mem_join {sep : Text} {ls : List Text} {c : Char} (h : c ∈ join sep ls) : c ∈ sep ∨ ∃ l ∈ ls, c ∈ l := by
  induction ls with
  | nil => cases h
  | cons p ps ih =>
    by_cases hp : ps = []
    · subst hp
      exact Or.inr ⟨p, List.mem_cons_self, h⟩
    · rw [join_cons _ _ hp, List.mem_append, List.mem_append] at h
      rcases h with (h | h) | h
      · exact Or.inr ⟨p, List.mem_cons_self, h⟩
      · exact Or.inl h
      · rcases ih h with h | ⟨l, hl, h⟩
        · exact Or.inl h
        · exact Or.inr ⟨l, List.mem_cons_of_mem _ hl, h⟩

theorem mem_indent {s : Text} {c : Char} (h : c ∈ indent s) : c = '\n' ∨ c = ' ' ∨ c ∈ s := by
  rcases mem_join h with h | ⟨l, hl, h⟩
  · exact Or.inl (by simpa using h)
  · obtain ⟨x, hx, rfl⟩ := List.mem_map.1 hl
    rcases List.mem_append.1 h with h | h
    · exact Or.inr (Or.inl (by simpa using h))
    · exact Or.inr (Or.inr (mem_lines x hx c h))

/-- Without carriage returns, Python sees the lines of `split('\n')`. -/
theorem pyLines {s : Text} (h : '\r' ∉ s) : Spec.Py.lines s = lines s := by
  induction s with
  | nil => rfl
  | cons c s ih =>
    have h1 : c ≠ '\r' := fun h' => h (by simp [h'])
    rw [Spec.Py.lines, lines, ih fun h' => h (List.mem_cons_of_mem _ h')]
    by_cases hc : c = '\n'
    · rw [if_pos (Or.inl hc), if_pos hc]
    · rw [if_neg (by simp [hc, h1]), if_neg hc]
      cases lines s <;> rfl

/-! ## Depths -/

/-- The non-blank lines with their depths. -/
def numbered (ls : List Text) : List (ℕ × Text) := ls.filterMap readLine

theorem numbered_append (a b : List Text) : numbered (a ++ b) = numbered a ++ numbered b := List.filterMap_append

theorem readLine_indent (l : Text) : readLine ("  ".toList ++ l) = (readLine l).map fun p => (p.1 + 2, p.2) := by
  have h1 : ("  ".toList ++ l).dropWhile (· == ' ') = l.dropWhile (· == ' ') := by simp [List.dropWhile]
  have h2 : ("  ".toList ++ l).takeWhile (· == ' ') = ' ' :: ' ' :: l.takeWhile (· == ' ') := by simp [List.takeWhile]
  unfold readLine
  rw [h1, h2]
  split
  · rfl
  · rfl

theorem numbered_indent (s : Text) : numbered (lines (indent s)) = (numbered (lines s)).map fun p => (p.1 + 2, p.2) := by
  rw [lines_indent]
  unfold numbered
  rw [List.filterMap_map, List.map_filterMap]
  congr 1
  funext l
  exact readLine_indent l

/-- Lines that begin with something else than a space. -/
def Solid (l : Text) : Prop := ∃ c cs, l = c :: cs ∧ c ≠ ' '

theorem readLine_solid {l : Text} (h : Solid l) : readLine l = some (0, l) := by
  obtain ⟨c, cs, rfl, hc⟩ := h
  have hb : (c == ' ') = false := by simpa using hc
  unfold readLine
  rw [List.dropWhile_cons, List.takeWhile_cons, hb]
  rfl

theorem numbered_solid {l : Text} (h : Solid l) (h' : '\n' ∉ l) : numbered (lines l) = [(0, l)] := by
  rw [lines_single h']
  simp [numbered, readLine_solid h]

theorem numbered_nil : numbered [[]] = [] := rfl

theorem numbered_first {a : Text} (h : '\n' ∉ a) (hs : Solid a) (b : Text) :
    numbered (lines (a ++ '\n' :: b)) = (0, a) :: numbered (lines b) := by
  rw [lines_first h, numbered, List.filterMap_cons, readLine_solid hs]
  rfl

theorem numbered_last (a : Text) : numbered (lines (a ++ ['\n'])) = numbered (lines a) := by
  rw [lines_last, numbered_append, numbered_nil, List.append_nil]

/-! ## Repeated blank lines -/

theorem blank_nil : blank [] = true := rfl

theorem numbered_blank {l : Text} (h : l.dropWhile (· == ' ') = []) : blank l = true := by
  rw [List.dropWhile_eq_nil_iff] at h
  unfold blank
  rw [List.all_eq_true]
  intro c hc
  have := h c hc
  simp at this
  subst this
  decide

theorem squeezeFrom_numbered (prev : Text) (ls : List Text) (h : ∀ l ∈ ls, blank l = true → readLine l = none) :
    numbered (squeezeFrom prev ls) = numbered ls := by
  induction ls generalizing prev with
  | nil => rfl
  | cons x xs ih =>
    have ih := fun p => ih p fun l hl => h l (List.mem_cons_of_mem _ hl)
    unfold squeezeFrom
    split
    · rw [numbered, numbered, List.filterMap_cons, List.filterMap_cons]
      cases readLine x with
      | none => exact ih x
      | some y => exact congrArg _ (ih x)
    · next hb =>
      have hb' : blank x = true := by
        cases hx : blank x
        · exact absurd (Or.inl hx) hb
        · rfl
      rw [ih x, numbered, numbered, List.filterMap_cons, h x List.mem_cons_self hb']

theorem squeeze_numbered (ls : List Text) (h : ∀ l ∈ ls, blank l = true → readLine l = none) : numbered (squeeze ls) = numbered ls := by
  cases ls with
  | nil => rfl
  | cons x xs =>
    rw [squeeze, numbered, numbered, List.filterMap_cons, List.filterMap_cons]
    have := squeezeFrom_numbered x xs fun l hl => h l (List.mem_cons_of_mem _ hl)
    cases readLine x with
    | none => exact this
    | some y => exact congrArg _ this

theorem squeezeFrom_sublist (prev : Text) (ls : List Text) : (squeezeFrom prev ls).Sublist ls := by
  induction ls generalizing prev with
  | nil => exact .slnil
  | cons x xs ih =>
    unfold squeezeFrom
    split
    · exact (ih x).cons_cons x
    · exact (ih x).cons x

theorem squeeze_sublist (ls : List Text) : (squeeze ls).Sublist ls := by
  cases ls with
  | nil => exact .slnil
  | cons x xs => exact (squeezeFrom_sublist x xs).cons_cons x

theorem squeeze_ne {ls : List Text} (h : ls ≠ []) : squeeze ls ≠ [] := by
  cases ls with
  | nil => exact absurd rfl h
  | cons x xs => simp [squeeze]

theorem lines_cleanUp (s : Text) : lines (cleanUp s) = squeeze (lines s) :=
  lines_join' _ (squeeze_ne (lines_ne s)) fun l hl => not_mem_lines l ((squeeze_sublist _).subset hl)

theorem mem_cleanUp {s : Text} {c : Char} (h : c ∈ cleanUp s) : c = '\n' ∨ c ∈ s := by
  rcases mem_join h with h | ⟨l, hl, h⟩
  · exact Or.inl (by simpa using h)
  · exact Or.inr (mem_lines l ((squeeze_sublist _).subset hl) c h)

/-- Keeping the non-blank lines. -/
theorem squeezeFrom_filter (prev : Text) (ls : List Text) :
    (squeezeFrom prev ls).filter (fun l => !blank l) = ls.filter fun l => !blank l := by
  induction ls generalizing prev with
  | nil => rfl
  | cons x xs ih =>
    unfold squeezeFrom
    split
    · rw [List.filter_cons, List.filter_cons, ih]
    · next hb =>
      have hb' : blank x = true := by
        cases hx : blank x
        · exact absurd (Or.inl hx) hb
        · rfl
      rw [ih, List.filter_cons, hb']
      rfl

theorem squeeze_filter (ls : List Text) : (squeeze ls).filter (fun l => !blank l) = ls.filter fun l => !blank l := by
  cases ls with
  | nil => rfl
  | cons x xs => rw [squeeze, List.filter_cons, List.filter_cons, squeezeFrom_filter]

theorem chain_cons {R : Text → Text → Prop} {x : Text} {l : List Text} (h : ∀ y, l.head? = some y → R x y) (h' : List.IsChain R l) :
    List.IsChain R (x :: l) := by
  cases l with
  | nil => exact .singleton x
  | cons y l => exact .cons_cons (h y rfl) h'

/-- No blank line follows a blank line. -/
theorem squeezeFrom_chain (prev : Text) (ls : List Text) :
    List.IsChain (fun a b => blank a = false ∨ blank b = false) (squeezeFrom prev ls) ∧
      (blank prev = true → ∀ x, (squeezeFrom prev ls).head? = some x → blank x = false) := by
  induction ls generalizing prev with
  | nil => exact ⟨.nil, fun _ x hx => by cases hx⟩
  | cons x xs ih =>
    unfold squeezeFrom
    split
    · next hb =>
      refine ⟨?_, ?_⟩
      · refine chain_cons (fun y hy => ?_) (ih x).1
        cases hx : blank x
        · exact Or.inl rfl
        · exact Or.inr ((ih x).2 hx y hy)
      · intro hp y hy
        cases hy
        rcases hb with hb | hb
        · exact hb
        · rw [hp] at hb; cases hb
    · next hb =>
      have hb' : blank x = true := by
        cases hx : blank x
        · exact absurd (Or.inl hx) hb
        · rfl
      exact ⟨(ih x).1, fun _ => (ih x).2 hb'⟩

theorem squeeze_chain (ls : List Text) : List.IsChain (fun a b => blank a = false ∨ blank b = false) (squeeze ls) := by
  cases ls with
  | nil => exact .nil
  | cons x xs =>
    rw [squeeze]
    refine chain_cons (fun y hy => ?_) (squeezeFrom_chain x xs).1
    cases hx : blank x
    · exact Or.inl rfl
    · exact Or.inr ((squeezeFrom_chain x xs).2 hx y hy)

end PythonDice.Compiler
