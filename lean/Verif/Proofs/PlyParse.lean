import Verif.Model.PlyParse
import Verif.Proofs.ParseEnds

/-!
# The loop of PLY does what `Yacc.loop` does
-/

namespace PythonDice.PlyParse

open Lexer (Token)
open Yacc (Tables Action Val ParseErr Parsed Config)
open Spec (TokenOK)

/-- The lookahead of a list of tokens. -/
def lookOf : List Token → Sy
  | [] => .fin
  | t :: ts => .tok t (t :: ts)

theorem type_lookOf (ts : List Token) : (lookOf ts).type = Yacc.ahead ts := by
  cases ts <;> rfl

/-- The loop of PLY is where the model is. -/
structure Sim (c : Config) (k : ℕ) (bad : List (List Token)) (s : St) : Prop where
  states : s.states = c.stack.map Prod.fst ++ [0]
  state : s.state = Yacc.top c.stack
  syms : ∃ l, s.syms = l ++ [.fin] ∧ l.map Sy.value = c.stack.map fun e => some e.2
  look : s.look = none ∧ s.input = c.input ∨ s.look = some (lookOf c.input) ∧ s.input = c.input.tail
  looks : s.looks = []
  count : s.count = k
  errok : s.errok = true → k = 0
  bad : s.bad = bad

theorem Sim.fetch {c : Config} {k : ℕ} {bad : List (List Token)} {s : St} (h : Sim c k bad s) :
    (PlyParse.fetch s).1 = lookOf c.input ∧ Sim c k bad (PlyParse.fetch s).2 ∧ (PlyParse.fetch s).2.look = some (lookOf c.input) ∧
      (PlyParse.fetch s).2.input = c.input.tail := by
  obtain ⟨states, syms, state, look, looks, count, errok, input, bad'⟩ := s
  obtain ⟨h1, h2, h3, h4, h5, h6, h7, h8⟩ := h
  dsimp only at h1 h2 h3 h4 h5 h6 h7 h8
  subst h5
  rcases h4 with ⟨rfl, rfl⟩ | ⟨rfl, rfl⟩
  · cases hc : c.input with
    | nil => exact ⟨rfl, ⟨h1, h2, h3, Or.inr ⟨by simp [lookOf, hc, PlyParse.fetch], by simp [hc, PlyParse.fetch]⟩, rfl, h6, h7, h8⟩, rfl, rfl⟩
    | cons t ts => exact ⟨rfl, ⟨h1, h2, h3, Or.inr ⟨by simp [lookOf, hc, PlyParse.fetch], by simp [hc, PlyParse.fetch]⟩, rfl, h6, h7, h8⟩, rfl, rfl⟩
  · exact ⟨rfl, ⟨h1, h2, h3, Or.inr ⟨rfl, rfl⟩, rfl, h6, h7, h8⟩, rfl, rfl⟩

theorem defaulted_none (s : ℕ) : defaulted Yacc.tables s = none := by
  unfold defaulted
  split
  · rename_i a p h
    exfalso
    have hm : [(a, Action.reduce p)] ∈ Yacc.tables.action := by
      rw [List.getD_eq_getElem?_getD] at h
      cases hr : Yacc.tables.action[s]? with
      | none => rw [hr] at h; cases h
      | some row =>
        rw [hr] at h
        cases h
        exact List.mem_of_getElem? hr
    exact Yacc.no_defaulted_states _ hm a p rfl
  · rfl

theorem isTable : Yacc.IsTable Yacc.tables := by
  rw [Yacc.tables_eq]
  exact Yacc.isTable

theorem no_error_entry : ∀ row ∈ Yacc.tableData.action, Yacc.assoc errorCode row = none := by decide +kernel

theorem action_error (s : ℕ) : Yacc.action Yacc.tables s errorCode = none := by
  rw [Yacc.tables_eq, Yacc.action, List.getD_eq_getElem?_getD]
  cases hr : Yacc.tableData.action[s]? with
  | none => rfl
  | some row => exact no_error_entry row (List.mem_of_getElem? hr)

theorem turn_eq {c : Config} {k : ℕ} {bad : List (List Token)} {s : St} (h : Sim c k bad s) :
    turn Yacc.tables s = match Yacc.action Yacc.tables (Yacc.top c.stack) (Yacc.ahead c.input) with
      | some a => act Yacc.tables (fetch s).2 a
      | none => recover (lookOf c.input) (report (lookOf c.input) (fetch s).2) := by
  rw [turn, defaulted_none]
  dsimp only
  rw [h.fetch.1, type_lookOf, h.state]
  cases Yacc.action Yacc.tables (Yacc.top c.stack) (Yacc.ahead c.input) <;> rfl

theorem mapM_value : ∀ {l : List Sy} {vs : List Val}, l.map Sy.value = vs.map some → l.mapM Sy.value = some vs
  | [], [], _ => rfl
  | [], _ :: _, h => by cases h
  | _ :: _, [], h => by cases h
  | a :: l, v :: vs, h => by
      rw [List.map_cons, List.map_cons, List.cons.injEq] at h
      rw [List.mapM_cons, h.1, mapM_value h.2]
      rfl

theorem DerivesL_length {s j : ℕ} {xs : List Yacc.Sym} {vs : List Val} {ts rest : List Token} (h : Yacc.DerivesL s xs vs ts rest j) :
    vs.length = xs.length :=
  match h with
  | .nil _ _ => rfl
  | .cons _ _ hl => by rw [List.length_cons, List.length_cons, DerivesL_length hl]

theorem length_le {c : Config} {ts : List Token} (hst : Yacc.Stack c.stack ts c.input) {a p : ℕ} {r : Yacc.Rule}
    (h : Yacc.act (Yacc.top c.stack) a = some (.reduce p)) (hr : Yacc.rules[p - 1]? = some r) : r.rhs.length ≤ c.stack.length := by
  obtain ⟨r', hr', hsp⟩ := Yacc.spells_of_act h
  rw [hr] at hr'
  cases hr'
  obtain ⟨_, _, vs, _, _, hl, hvs, _⟩ := Yacc.Stack.pop r.rhs hst hsp
  have h1 := DerivesL_length hl
  have h2 := congrArg List.length hvs
  rw [List.length_map, List.length_reverse, List.length_take] at h2
  omega

/-- The arguments of a function. -/
theorem call_eq {c : Config} {k : ℕ} {bad : List (List Token)} {s : St} (h : Sim c k bad s) {n : ℕ} (hn : n ≤ c.stack.length) (f : Yacc.Func) :
    call f (s.syms.take n).reverse = f.run ((c.stack.take n).reverse.map Prod.snd) := by
  obtain ⟨l, hl, hv⟩ := h.syms
  have hlen : l.length = c.stack.length := by
    have := congrArg List.length hv
    simpa using this
  rw [call, mapM_value (vs := (c.stack.take n).reverse.map Prod.snd)]
  rw [hl, List.take_append_of_le_length (by omega), List.map_reverse, List.map_take, hv, List.map_reverse, List.map_reverse, List.map_take,
    List.map_take, List.map_map]
  rfl

theorem reduce_state {c : Config} {k : ℕ} {bad : List (List Token)} {s : St} (h : Sim c k bad s) {n : ℕ} (hn : n ≤ c.stack.length) :
    s.states.drop n = (c.stack.drop n).map Prod.fst ++ [0] ∧ ∃ l, s.syms.drop n = l ++ [.fin] ∧ l.map Sy.value = (c.stack.drop n).map fun e => some e.2 := by
  obtain ⟨l, hl, hv⟩ := h.syms
  have hlen : l.length = c.stack.length := by
    have := congrArg List.length hv
    simpa using this
  constructor
  · rw [h.states, List.drop_append_of_le_length (by simpa using hn), List.map_drop]
  · refine ⟨l.drop n, ?_, ?_⟩
    · rw [hl, List.drop_append_of_le_length (by omega)]
    · rw [List.map_drop, hv, List.map_drop]

theorem top_cons (st : List (ℕ × Val)) : ∃ qs, st.map Prod.fst ++ [0] = Yacc.top st :: qs := by
  cases st with
  | nil => exact ⟨[], rfl⟩
  | cons e st => exact ⟨_, rfl⟩

/-- The loop goes on. -/
theorem sim_more {c d : Config} {k : ℕ} {bad : List (List Token)} {s : St} {ts : List Token} (h : Sim c k bad s)
    (hst : Yacc.Stack c.stack ts c.input) (hs : Yacc.step Yacc.tables c = .more d) :
    ∃ s', turn Yacc.tables s = .more s' ∧ Sim d (if d.input.length < c.input.length then k - 1 else k) bad s' := by
  rw [turn_eq h]
  obtain ⟨_, hf, hlook, hin⟩ := h.fetch
  rw [Yacc.step] at hs
  cases ha : Yacc.action Yacc.tables (Yacc.top c.stack) (Yacc.ahead c.input) with
  | none => rw [ha] at hs; cases hs
  | some x =>
    rw [ha] at hs
    generalize fetch s = fs at hf hlook hin
    obtain ⟨_, g⟩ := fs
    dsimp only at hs hf hlook hin ⊢
    cases x with
    | shift j =>
      dsimp only at hs
      cases hc : c.input with
      | nil => rw [hc] at hs; cases hs
      | cons t rest =>
        rw [hc] at hs hlook hin
        cases hs
        obtain ⟨l, hl, hv⟩ := hf.syms
        refine ⟨{ g with states := j :: g.states, state := j, syms := lookOf (t :: rest) :: g.syms, look := none, count := g.count - 1 }, ?_, ?_⟩
        · rw [act, shift, hlook]
        · refine ⟨?_, rfl, ⟨lookOf (t :: rest) :: l, ?_, ?_⟩, Or.inl ⟨rfl, hin⟩, hf.looks, ?_, fun he => ?_, hf.bad⟩
          · show j :: g.states = _
            rw [hf.states]
            rfl
          · show _ :: g.syms = _
            rw [hl]
            rfl
          · rw [List.map_cons, hv]
            rfl
          · show g.count - 1 = _
            rw [hf.count, if_pos (by simp)]
          · have := hf.errok he
            rw [if_pos (by simp)]
            omega
    | reduce p =>
      dsimp only at hs
      rw [act]
      cases hr : Yacc.rules[p - 1]? with
      | none => rw [hr] at hs; cases hs
      | some r =>
        rw [hr] at hs
        have hn : r.rhs.length ≤ c.stack.length := length_le hst (by rw [← isTable.ahead]; exact ha) hr
        dsimp only at hs ⊢
        rw [Yacc.reduce] at hs
        rw [reduce, call_eq hf hn]
        cases hv : r.func.run ((c.stack.take r.rhs.length).reverse.map Prod.snd) with
        | error e => rw [hv] at hs; cases hs
        | ok v =>
          rw [hv] at hs
          dsimp only at hs ⊢
          cases hg : Yacc.goto Yacc.tables (Yacc.top (c.stack.drop r.rhs.length)) r.lhs with
          | none => rw [hg] at hs; cases hs
          | some j =>
            rw [hg] at hs
            cases hs
            obtain ⟨h1, l, h2, h3⟩ := reduce_state hf hn
            obtain ⟨qs, hq⟩ := top_cons (c.stack.drop r.rhs.length)
            rw [hq] at h1
            rw [h1]
            dsimp only
            rw [hg]
            refine ⟨_, rfl, ?_, rfl, ⟨.nt (Yacc.ntCode r.lhs) v :: l, ?_, ?_⟩, hf.look, hf.looks, ?_, ?_, hf.bad⟩
            · show _ = j :: ((c.stack.drop r.rhs.length).map Prod.fst ++ [0])
              rw [hq]
            · show _ :: g.syms.drop _ = _
              rw [h2]
              rfl
            · rw [List.map_cons, h3]
              rfl
            · rw [if_neg (by simp)]
              exact hf.count
            · rw [if_neg (by simp)]
              exact hf.errok
    | accept =>
      dsimp only at hs
      cases hc : c.stack with
      | nil => rw [hc] at hs; cases hs
      | cons e st => rw [hc] at hs; cases hs

theorem sim_done {c : Config} {k : ℕ} {bad : List (List Token)} {s : St} {v : Val} (h : Sim c k bad s)
    (hs : Yacc.step Yacc.tables c = .done v) : turn Yacc.tables s = .ret (some v) bad := by
  rw [turn_eq h]
  obtain ⟨_, hf, hlook, hin⟩ := h.fetch
  rw [Yacc.step] at hs
  cases ha : Yacc.action Yacc.tables (Yacc.top c.stack) (Yacc.ahead c.input) with
  | none => rw [ha] at hs; cases hs
  | some x =>
    rw [ha] at hs
    generalize fetch s = fs at hf hlook hin
    obtain ⟨_, g⟩ := fs
    dsimp only at hs hf hlook hin ⊢
    cases x with
    | shift j =>
      dsimp only at hs
      cases hc : c.input with
      | nil => rw [hc] at hs; cases hs
      | cons t rest => rw [hc] at hs; cases hs
    | reduce p =>
      dsimp only at hs
      cases hr : Yacc.rules[p - 1]? with
      | none => rw [hr] at hs; cases hs
      | some r =>
        rw [hr] at hs
        dsimp only at hs
        rw [Yacc.reduce] at hs
        cases hv : r.func.run ((c.stack.take r.rhs.length).reverse.map Prod.snd) with
        | error e => rw [hv] at hs; cases hs
        | ok v =>
          rw [hv] at hs
          dsimp only at hs
          cases hg : Yacc.goto Yacc.tables (Yacc.top (c.stack.drop r.rhs.length)) r.lhs with
          | none => rw [hg] at hs; cases hs
          | some j => rw [hg] at hs; cases hs
    | accept =>
      dsimp only at hs
      obtain ⟨l, hl, hv⟩ := hf.syms
      cases hc : c.stack with
      | nil => rw [hc] at hs; cases hs
      | cons e st =>
        rw [hc] at hs hv
        cases hs
        cases l with
        | nil => cases hv
        | cons a l =>
          rw [List.map_cons, List.map_cons, List.cons.injEq] at hv
          rw [act, hl, List.cons_append]
          dsimp only
          rw [hv.1, hf.bad]

theorem sim_index {c : Config} {k : ℕ} {bad : List (List Token)} {s : St} {ts : List Token} (h : Sim c k bad s)
    (hst : Yacc.Stack c.stack ts c.input) (hs : Yacc.step Yacc.tables c = .fail .indexError) : turn Yacc.tables s = .exc .indexError bad := by
  rw [turn_eq h]
  obtain ⟨_, hf, hlook, hin⟩ := h.fetch
  rw [Yacc.step] at hs
  cases ha : Yacc.action Yacc.tables (Yacc.top c.stack) (Yacc.ahead c.input) with
  | none => rw [ha] at hs; cases hs
  | some x =>
    rw [ha] at hs
    generalize fetch s = fs at hf hlook hin
    obtain ⟨_, g⟩ := fs
    dsimp only at hs hf hlook hin ⊢
    cases x with
    | shift j =>
      dsimp only at hs
      cases hc : c.input with
      | nil => rw [hc] at hs; cases hs
      | cons t rest => rw [hc] at hs; cases hs
    | reduce p =>
      dsimp only at hs
      rw [act]
      cases hr : Yacc.rules[p - 1]? with
      | none => rw [hr] at hs; cases hs
      | some r =>
        rw [hr] at hs
        have hn : r.rhs.length ≤ c.stack.length := length_le hst (by rw [← isTable.ahead]; exact ha) hr
        dsimp only at hs ⊢
        rw [Yacc.reduce] at hs
        rw [reduce, call_eq hf hn]
        cases hv : r.func.run ((c.stack.take r.rhs.length).reverse.map Prod.snd) with
        | error e =>
          rw [hv] at hs
          cases hs
          dsimp only
          rw [hf.bad]
        | ok v =>
          rw [hv] at hs
          dsimp only at hs
          cases hg : Yacc.goto Yacc.tables (Yacc.top (c.stack.drop r.rhs.length)) r.lhs with
          | none => rw [hg] at hs; cases hs
          | some j => rw [hg] at hs; cases hs
    | accept =>
      dsimp only at hs
      cases hc : c.stack with
      | nil => rw [hc] at hs; cases hs
      | cons e st => rw [hc] at hs; cases hs

/-! ## Errors -/

/-- One state leads to another. -/
def Runs (s s' : St) : Prop := ∃ m, ∀ n, run Yacc.tables (n + m) s = run Yacc.tables n s'

theorem Runs.refl (s : St) : Runs s s := ⟨0, fun _ => rfl⟩

theorem Runs.head {s s' t : St} (h : turn Yacc.tables s = .more s') (ht : Runs s' t) : Runs s t := by
  obtain ⟨m, hm⟩ := ht
  refine ⟨m + 1, fun n => ?_⟩
  rw [← Nat.add_assoc, run, h]
  exact hm n

/-- All states are popped, then the lookahead is dropped. -/
theorem pops (input : List Token) (bad : List (List Token)) : ∀ (qs : List ℕ) (syms : List Sy) (looks : List (Option Sy)) (q : ℕ),
    Runs ⟨q :: qs, syms, q, some .err, looks, 3, false, input, bad⟩
      ⟨[(q :: qs).getLast (by simp)], syms.drop qs.length, 0, none, [], 3, false, input, bad⟩
  | [], syms, looks, q => by
      refine .head ?_ (.refl _)
      rw [turn, defaulted_none]
      dsimp only [fetch]
      rw [show Sy.err.type = errorCode from rfl, action_error]
      rfl
  | q' :: qs, syms, looks, q => by
      refine .head (s' := ⟨q' :: qs, syms.tail, q', some .err, looks, 3, false, input, bad⟩) ?_ ?_
      · rw [turn, defaulted_none]
        dsimp only [fetch]
        rw [show Sy.err.type = errorCode from rfl, action_error]
        rfl
      · have := pops input bad qs syms.tail looks q'
        rw [List.drop_tail] at this
        rw [List.getLast_cons (by simp)]
        exact this

theorem report_eq {c : Config} {k : ℕ} {bad : List (List Token)} {g : St} (hf : Sim c k bad g) (t : Token) (rest : List Token) :
    report (.tok t rest) g =
      { g with count := 3, errok := if k = 0 then false else g.errok, bad := if k = 0 then bad ++ [rest] else bad } := by
  rw [report]
  by_cases hk : k = 0
  · rw [if_pos (Or.inl (hf.count.trans hk)), if_pos hk, if_pos hk, hf.bad]
  · rw [if_neg, if_neg hk, if_neg hk, hf.bad]
    rintro (e | e)
    · exact hk (hf.count ▸ e)
    · exact hk (hf.errok e)

/-- After a syntax error. -/
theorem sim_error {c : Config} {k : ℕ} {bad : List (List Token)} {s : St} {t : Token} {rest : List Token} (h : Sim c k bad s)
    (hc : c.input = t :: rest) (ha : Yacc.action Yacc.tables (Yacc.top c.stack) (Yacc.ahead c.input) = none) :
    ∃ s', Runs s s' ∧ Sim ⟨[], rest⟩ 3 (if k = 0 then bad ++ [t :: rest] else bad) s' := by
  have hturn := turn_eq h
  obtain ⟨_, hf, hlook, hin⟩ := h.fetch
  rw [ha] at hturn
  generalize fetch s = fs at hf hlook hin hturn
  obtain ⟨_, g⟩ := fs
  dsimp only at hf hlook hin hturn
  rw [hc] at hturn hlook hin
  rw [lookOf, report_eq hf] at hturn
  have hke : (if k = 0 then false else g.errok) = false := by
    split_ifs with hk
    · rfl
    · by_contra hn
      exact hk (hf.errok (by simpa using hn))
  rw [hke] at hturn
  obtain ⟨l, hl, hv⟩ := hf.syms
  have hte : (Sy.tok t (t :: rest)).type ≠ Yacc.endCode := by
    have := (Yacc.kindCode_lt t.kind)
    show Yacc.kindCode t.kind ≠ 42
    omega
  have hterr : (Sy.tok t (t :: rest)).type ≠ errorCode := by
    have := (Yacc.kindCode_lt t.kind)
    show Yacc.kindCode t.kind ≠ 43
    omega
  have hst := hf.states
  cases hcs : c.stack with
  | nil =>
    rw [hcs] at hst hv
    have hl0 : l = [] := by simpa using hv
    subst hl0
    rw [recover, if_pos ⟨by simp [hst], hte⟩] at hturn
    exact ⟨_, .head hturn (.refl _), ⟨hst, rfl, ⟨[], hl, rfl⟩, Or.inl ⟨rfl, hin⟩, rfl, rfl, (fun e => by cases e), rfl⟩⟩
  | cons e st =>
    rw [hcs] at hst hv
    cases l with
    | nil => cases hv
    | cons a l =>
      have hlen : l.length = st.length := by
        have := congrArg List.length hv
        simpa using this
      have ha' : a ≠ .err := by
        rintro rfl
        cases hv
      rw [recover, if_neg (by simp [hst]), if_neg hte, if_pos hterr] at hturn
      have hturn' : turn Yacc.tables s = .more ⟨e.1 :: (st.map Prod.fst ++ [0]), a :: l ++ [.fin], e.1, some .err, [some (.tok t (t :: rest))], 3, false,
          rest, if k = 0 then bad ++ [t :: rest] else bad⟩ := by
        rw [hturn]
        dsimp only
        rw [hl, hst, hin, hf.looks, hf.state, hcs]
        cases a with
        | err => exact absurd rfl ha'
        | _ => rfl
      refine ⟨_, .head hturn' (pops _ _ _ _ _ _), ?_⟩
      refine ⟨?_, rfl, ⟨[], ?_, rfl⟩, Or.inl ⟨rfl, rfl⟩, rfl, rfl, (fun e => by cases e), rfl⟩
      · show [_] = [0]
        simp
      · show List.drop _ (a :: l ++ [Sy.fin]) = _
        rw [List.length_append, List.length_map, ← hlen]
        simp

theorem sim_end {c : Config} {k : ℕ} {bad : List (List Token)} {s : St} (h : Sim c k bad s)
    (hc : c.input = []) (ha : Yacc.action Yacc.tables (Yacc.top c.stack) (Yacc.ahead c.input) = none) :
    turn Yacc.tables s = .ret none bad := by
  rw [turn_eq h, ha]
  obtain ⟨_, hf, hlook, hin⟩ := h.fetch
  rw [hc]
  dsimp only [lookOf]
  have hb : (report .fin (fetch s).2).bad = bad := by
    unfold report
    split_ifs <;> exact hf.bad
  have ht : Sy.fin.type = Yacc.endCode := rfl
  rw [recover, if_neg (fun e => e.2 ht), if_pos ht, hb]

/-- The loops agree. -/
theorem run_of_loop (all : List Token) (hok : ∀ t ∈ all, TokenOK t) (f : ℕ) : ∀ (c : Config) (k : ℕ) (bad : List (List Token)) (pre ts : List Token)
    (n : ℕ) (p : Parsed) (s : St), all = pre ++ (ts ++ c.input) → Yacc.Stack c.stack ts c.input → Yacc.Weigh c.stack n → Sim c k bad s →
    Yacc.loop Yacc.tables f c k bad = some p → ∃ m, ∀ i, run Yacc.tables (i + m) s = some p := by
  induction f with
  | zero => intro c k bad pre ts n p s _ _ _ _ h; cases h
  | succ f ih =>
    intro c k bad pre ts n p s hall hst hw hsim h
    have hok' : ∀ t ∈ ts ++ c.input, TokenOK t := fun t ht => hok t (by rw [hall]; exact List.mem_append_right _ ht)
    cases Yacc.turn isTable hst hw hok' with
    | more d ts' n' hs hst' hw' ht hlt' =>
      simp only [Yacc.loop, hs] at h
      obtain ⟨s', hs', hsim'⟩ := sim_more hsim hst hs
      obtain ⟨m, hm⟩ := ih d _ _ pre ts' n' p s' (by rw [ht]; exact hall) hst' hw' hsim' h
      refine ⟨m + 1, fun i => ?_⟩
      rw [← Nat.add_assoc, run, hs']
      exact hm i
    | done v hs hi hd =>
      simp only [Yacc.loop, hs] at h
      refine ⟨1, fun i => ?_⟩
      rw [run, sim_done hsim hs]
      exact h
    | syntaxError hs ha =>
      simp only [Yacc.loop, hs] at h
      rw [← isTable.ahead] at ha
      cases hc : c.input with
      | nil =>
        rw [hc] at h
        refine ⟨1, fun i => ?_⟩
        rw [run, sim_end hsim hc ha]
        exact h
      | cons t rest =>
        rw [hc] at h
        obtain ⟨s', ⟨m1, hm1⟩, hsim'⟩ := sim_error hsim hc ha
        obtain ⟨m, hm⟩ := ih ⟨[], rest⟩ 3 _ (pre ++ (ts ++ [t])) [] 0 p s' (by rw [hall, hc]; simp) (.nil _) .nil hsim' h
        refine ⟨m + m1, fun i => ?_⟩
        rw [← Nat.add_assoc, hm1, hm]
    | action hs ht =>
      simp only [Yacc.loop, hs] at h
      refine ⟨1, fun i => ?_⟩
      rw [run, sim_index hsim hst hs]
      exact h

/-- The number of turns does not matter. -/
theorem run_mono (T : Tables) : ∀ (n : ℕ) (s : St) (p : Parsed) (m : ℕ), run T n s = some p → run T (n + m) s = some p
  | 0, _, _, _, h => by cases h
  | n + 1, s, p, m, h => by
      rw [Nat.add_right_comm]
      rw [run] at h ⊢
      cases ht : turn T s with
      | ret v b => rw [ht] at h; exact h
      | exc e b => rw [ht] at h; exact h
      | more s' =>
        rw [ht] at h
        exact run_mono T n s' p m h

/-- `LRParser.parse` and the model of the parser. -/
theorem run_iff {ts : List Token} (hok : ∀ t ∈ ts, TokenOK t) (p : Parsed) :
    (∃ n, run Yacc.tables n (start ts) = some p) ↔ Yacc.parse Yacc.tables ts = some p := by
  obtain ⟨p0, hp0, _⟩ := Yacc.parse_ends isTable hok
  have hsim : Sim (Yacc.start ts) 0 [] (start ts) := ⟨rfl, rfl, ⟨[], rfl, rfl⟩, Or.inl ⟨rfl, rfl⟩, rfl, rfl, fun _ => rfl, rfl⟩
  obtain ⟨m, hm⟩ := run_of_loop ts hok _ (Yacc.start ts) 0 [] [] [] 0 p0 (start ts) (by simp [Yacc.start]) (.nil _) .nil hsim hp0
  constructor
  · rintro ⟨n, hn⟩
    have h1 := run_mono Yacc.tables n _ p m hn
    rw [hm n] at h1
    rw [hp0, h1]
  · intro h
    rw [hp0] at h
    cases h
    exact ⟨0 + m, hm 0⟩

end PythonDice.PlyParse
