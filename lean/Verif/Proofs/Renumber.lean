import Verif.Proofs.LalrTables
import Verif.Proofs.PlyParse

/-!
# The numbers of the states do not matter
-/

namespace PythonDice.PlyParse

open Lexer (Token)
open Yacc (Tables Action Val ParseErr Parsed number)

/-- Tables with other numbers for the states. -/
structure Renumbered (f : ℕ → ℕ) (T U : Tables) : Prop where
  zero : f 0 = 0
  action : ∀ s, U.action.getD (f s) [] = (T.action.getD s []).map fun e => (e.1, e.2.renumber f)
  goto : ∀ s x, Yacc.goto U (f s) x = (Yacc.goto T s x).map f

theorem assoc_map_snd {γ δ : Type} (f : γ → δ) (x : ℕ) : ∀ l : List (ℕ × γ), Yacc.assoc x (l.map fun e => (e.1, f e.2)) = (Yacc.assoc x l).map f
  | [] => rfl
  | (y, v) :: l => by
      rw [List.map_cons, Yacc.assoc, Yacc.assoc]
      split
      · rfl
      · exact assoc_map_snd f x l

/-- The variables with other numbers. -/
def St.renumber (f : ℕ → ℕ) (s : St) : St := { s with states := s.states.map f, state := f s.state }

/-- A turn with other numbers. -/
def Out.renumber (f : ℕ → ℕ) : Out → Out
  | .ret v b => .ret v b
  | .exc e b => .exc e b
  | .more s => .more (s.renumber f)

variable {f : ℕ → ℕ} {T U : Tables}

theorem Renumbered.lookup (h : Renumbered f T U) (s a : ℕ) : Yacc.action U (f s) a = (Yacc.action T s a).map (Action.renumber f) := by
  rw [Yacc.action, Yacc.action, h.action, assoc_map_snd]

theorem Renumbered.defaulted (h : Renumbered f T U) (s : ℕ) : PlyParse.defaulted U (f s) = (PlyParse.defaulted T s).map (Action.renumber f) := by
  rw [PlyParse.defaulted, PlyParse.defaulted, h.action]
  rcases T.action.getD s [] with _ | ⟨⟨a, _ | p | _⟩, _ | ⟨e, l⟩⟩ <;> rfl

theorem fetch_renumber (s : St) : fetch (s.renumber f) = ((fetch s).1, (fetch s).2.renumber f) := by
  obtain ⟨states, syms, state, look, looks, count, errok, input, bad⟩ := s
  rcases look with _ | l
  · rcases looks with _ | ⟨l, ls⟩
    · rcases input with _ | ⟨t, ts⟩ <;> rfl
    · rfl
  · rfl

theorem report_renumber (l : Sy) (s : St) : report l (s.renumber f) = (report l s).renumber f := by
  unfold report
  show (if s.count = 0 ∨ s.errok = true then _ else _) = _
  split_ifs <;> rfl

theorem recover_renumber (h0 : f 0 = 0) (l : Sy) (s : St) : recover l (s.renumber f) = (recover l s).renumber f := by
  obtain ⟨states, syms, state, look, looks, count, errok, input, bad⟩ := s
  unfold recover
  have hlen : (St.renumber f ⟨states, syms, state, look, looks, count, errok, input, bad⟩).states.length = states.length := List.length_map ..
  rw [hlen]
  dsimp only
  split_ifs
  · simp [Out.renumber, St.renumber, h0]
  · rfl
  · rcases syms with _ | ⟨_ | _ | _ | _, syms⟩ <;> rfl
  · cases states with
    | nil => rfl
    | cons q qs =>
      cases qs with
      | nil => rfl
      | cons q' qs => rfl

theorem reduce_renumber (h : Renumbered f T U) (r : Yacc.Rule) (s : St) : reduce U r (s.renumber f) = (reduce T r s).renumber f := by
  obtain ⟨states, syms, state, look, looks, count, errok, input, bad⟩ := s
  unfold reduce
  dsimp only [St.renumber]
  cases call r.func (syms.take r.rhs.length).reverse with
  | ok v =>
    dsimp only
    rw [← List.map_drop]
    cases states.drop r.rhs.length with
    | nil => rfl
    | cons q qs =>
      rw [List.map_cons]
      dsimp only
      rw [h.goto]
      cases Yacc.goto T q r.lhs <;> rfl
  | error e =>
    cases e with
    | syntaxError =>
      dsimp only
      rw [← List.map_tail]
      cases states.tail with
      | nil => rfl
      | cons q qs => rfl
    | indexError => rfl
    | internal => rfl

theorem act_renumber (h : Renumbered f T U) (s : St) (a : Action) : act U (s.renumber f) (a.renumber f) = (act T s a).renumber f := by
  cases a with
  | shift j =>
    obtain ⟨states, syms, state, look, looks, count, errok, input, bad⟩ := s
    cases look <;> rfl
  | reduce p =>
    rw [Action.renumber, act, act]
    cases Yacc.rules[p - 1]? with
    | none => rfl
    | some r => exact reduce_renumber h r s
  | accept =>
    obtain ⟨states, syms, state, look, looks, count, errok, input, bad⟩ := s
    cases syms <;> rfl

theorem turn_renumber (h : Renumbered f T U) (s : St) : turn U (s.renumber f) = (turn T s).renumber f := by
  have h1 : (s.renumber f).state = f s.state := rfl
  rw [turn, turn, h1, h.defaulted, fetch_renumber]
  cases defaulted T s.state with
  | some a => exact act_renumber h s a
  | none =>
    dsimp only [Option.map_none]
    rw [h.lookup]
    cases Yacc.action T s.state (fetch s).1.type with
    | some a => exact act_renumber h _ a
    | none =>
      dsimp only [Option.map_none]
      rw [report_renumber, recover_renumber h.zero]

theorem run_renumber (h : Renumbered f T U) : ∀ (n : ℕ) (s : St), run U n (s.renumber f) = run T n s
  | 0, _ => rfl
  | n + 1, s => by
      rw [run, run, turn_renumber h]
      cases turn T s with
      | ret v b => rfl
      | exc e b => rfl
      | more s' => exact run_renumber h n s'

theorem start_renumber (h0 : f 0 = 0) (ts : List Token) : (start ts).renumber f = start ts := by
  simp [start, St.renumber, h0]

theorem number_ge {s : ℕ} (h : 183 ≤ s) : number s = s := by
  have hl : Yacc.numberData.length = 183 := by decide +kernel
  rw [number, List.getD_eq_getElem?_getD, List.getElem?_eq_none (by omega)]
  rfl

theorem ntCode_lt (x : Yacc.NT) : ∃ i < 16, Yacc.ntCode x = 64 + i :=
  ⟨Yacc.ntCode x - 64, by cases x <;> decide, by cases x <;> decide⟩

theorem stateData_length : Yacc.stateData.length = 183 := by decide +kernel

theorem number_lt (s : ℕ) : number s < 183 ↔ s < 183 := by
  constructor
  · intro h
    by_contra hs
    rw [number_ge (by omega)] at h
    exact hs h
  · intro h
    obtain ⟨h1, _⟩ := List.getElem?_eq_some_iff.1 (Yacc.number_state s h)
    rw [stateData_length] at h1
    exact h1

theorem number_injective : Function.Injective number := by
  intro s t h
  rcases lt_or_ge s 183 with hs | hs
  · have ht : t < 183 := by rw [← number_lt, ← h, number_lt]; exact hs
    have h1 := Yacc.number_state s hs
    rw [h, Yacc.number_state t ht] at h1
    exact (Option.some.inj h1).symm
  · have ht : 183 ≤ t := by
      by_contra hc
      have h1 : number t < 183 := (number_lt t).2 (by omega)
      rw [← h, number_lt] at h1
      omega
    rwa [number_ge hs, number_ge ht] at h

theorem ply_length : (Yacc.plyBuild Yacc.precedence Yacc.rules 200).action.length = 183 := by
  rw [Yacc.plyBuild_eq, Yacc.ply_action, List.length_map, stateData_length]

theorem tables_length : Yacc.tables.action.length = 183 := by
  rw [Yacc.tables_eq]
  show (Yacc.actionData.map Yacc.expandRow).length = 183
  rw [List.length_map, Yacc.actionData_length]

/-- The tables of PLY are those of the model, with other numbers. -/
theorem ply_renumbered : Renumbered number Yacc.tables (Yacc.plyBuild Yacc.precedence Yacc.rules 200) := by
  rw [Yacc.tables_eq, Yacc.plyBuild_eq]
  refine ⟨by decide +kernel, fun s => ?_, fun s x => ?_⟩
  · rw [Yacc.ply_action]
    rcases lt_or_ge s 183 with h | h
    · rw [List.getD_eq_getElem?_getD, List.getElem?_map, Yacc.number_state s h]
      rfl
    · have hl : Yacc.stateData.length = 183 := by decide +kernel
      have hl' : Yacc.tableData.action.length = 183 := by
        show (Yacc.actionData.map Yacc.expandRow).length = 183
        rw [List.length_map, Yacc.actionData_length]
      rw [number_ge h, List.getD_eq_getElem?_getD, List.getElem?_map, List.getElem?_eq_none (by omega), List.getD_eq_getElem?_getD,
        List.getElem?_eq_none (by omega)]
      rfl
  · rcases lt_or_ge s 183 with h | h
    · obtain ⟨i, hi, hx⟩ := ntCode_lt x
      have h1 := List.all_eq_true.1 (List.all_eq_true.1 Yacc.ply_goto s (List.mem_range.2 h)) i (List.mem_range.2 hi)
      rw [decide_eq_true_eq] at h1
      rw [Yacc.goto, Yacc.goto, hx]
      exact h1
    · have hl : (Yacc.gStates.map Yacc.ntNext).length = 183 := by
        have h1 := congrArg List.length Yacc.ply_action
        have h2 : Yacc.stateData.length = 183 := by decide +kernel
        rw [List.length_map, h2] at h1
        rw [List.length_map, ← h1]
        simp [Yacc.tablesFrom, Yacc.numbered]
      have hl' : Yacc.tableData.goto.length = 183 := Yacc.gotoData_length
      rw [number_ge h, Yacc.goto, Yacc.goto]
      show Yacc.assoc _ ((Yacc.gStates.map Yacc.ntNext).getD s []) = _
      rw [List.getD_eq_getElem?_getD, List.getElem?_eq_none (by omega), List.getD_eq_getElem?_getD, List.getElem?_eq_none (by omega)]
      rfl

end PythonDice.PlyParse
