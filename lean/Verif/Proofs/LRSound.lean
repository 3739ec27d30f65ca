import Verif.Proofs.LRSpell
import Mathlib.Data.List.GetD
import Mathlib.Data.List.Induction

/-!
# From runs of the parser to derivations
-/

namespace PythonDice.Yacc

open Lexer (Kind Token)

theorem rowAction_mem {a : ℕ} {x : Action} {row : List (ℕ × Action)} (h : rowAction a row = some x) : ∃ m, (m, x) ∈ row := by
  induction row with
  | nil => cases h
  | cons e row ih =>
    obtain ⟨m, y⟩ := e
    simp only [rowAction] at h
    split at h
    · cases h; exact ⟨m, by simp⟩
    · obtain ⟨m', hm⟩ := ih h; exact ⟨m', by simp [hm]⟩

theorem assoc_mem {α : Type} {x : ℕ} {v : α} {l : List (ℕ × α)} (h : assoc x l = some v) : (x, v) ∈ l := by
  induction l with
  | nil => cases h
  | cons e l ih =>
    obtain ⟨y, w⟩ := e
    simp only [assoc] at h
    split at h
    · rename_i hb
      have := Nat.eq_of_beq_eq_true hb
      cases h; simp [this]
    · simp [ih h]

/-- The symbol with a code. -/
def decode (c : ℕ) : Option Sym := if c < 64 then (kinds[c - 1]?).map .t else (nts[c - 64]?).map .n

theorem decode_code (x : Sym) : decode x.code = some x := by
  cases x with
  | t k => cases k <;> decide
  | n x => cases x <;> decide

theorem code_inj {x y : Sym} (h : x.code = y.code) : x = y := by
  have h1 := decode_code x
  rw [h, decode_code y] at h1
  exact (Option.some.inj h1).symm

theorem actionData_length : actionData.length = 183 := by decide +kernel

theorem gotoData_length : gotoData.length = 183 := by decide +kernel

theorem act_lt {s a : ℕ} {x : Action} (h : act s a = some x) : s < 183 := by
  by_contra hn
  have : actionData.length ≤ s := by rw [actionData_length]; omega
  unfold act at h
  rw [List.getD_eq_default (hn := this)] at h
  cases h

theorem gotoOn_lt {s x j : ℕ} (h : gotoOn s x = some j) : s < 183 := by
  by_contra hn
  have : gotoData.length ≤ s := by rw [gotoData_length]; omega
  unfold gotoOn at h
  rw [List.getD_eq_default (hn := this)] at h
  cases h

theorem kindCode_lt (k : Kind) : kindCode k - 1 < 41 ∧ kindCode k - 1 + 1 = kindCode k := by cases k <;> decide

theorem nextState_lt {s j : ℕ} {x : Sym} (h : nextState s x = some j) : s < 183 := by
  cases x with
  | t k =>
    simp only [nextState] at h
    split at h
    · rename_i hk; exact act_lt hk
    · cases h
  | n x => exact gotoOn_lt h

theorem mem_transitions {s j : ℕ} {x : Sym} (h : nextState s x = some j) : (s, x.code, j) ∈ transitions := by
  have hs := nextState_lt h
  refine List.mem_flatMap.2 ⟨s, List.mem_range.2 hs, ?_⟩
  cases x with
  | t k =>
    refine List.mem_append_left _ (List.mem_filterMap.2 ⟨kindCode k - 1, List.mem_range.2 (kindCode_lt k).1, ?_⟩)
    rw [(kindCode_lt k).2]
    simp only [nextState, act] at h
    split at h
    · rename_i i hk
      rw [hk]
      cases h; rfl
    · cases h
  | n x =>
    refine List.mem_append_right _ (List.mem_map.2 ⟨(ntCode x, j), ?_, rfl⟩)
    simp only [nextState, gotoOn] at h
    exact assoc_mem h

/-! ## Stacks -/

/-- The stack holds what has been made of the tokens read. -/
inductive Stack : List (ℕ × Val) → List Token → List Token → Prop
  | nil (rest : List Token) : Stack [] [] rest
  | push {st : List (ℕ × Val)} {x : Sym} {v : Val} {j : ℕ} {ts ts' rest : List Token} (hs : Stack st ts (ts' ++ rest))
      (hd : Derives (top st) x v ts' rest) (hn : nextState (top st) x = some j) : Stack ((j, v) :: st) (ts ++ ts') rest

theorem DerivesL.snoc {s j k : ℕ} {xs : List Sym} {vs : List Val} {ts r ts' rest : List Token} {x : Sym} {v : Val}
    (h : DerivesL s xs vs ts r j) (hr : r = ts' ++ rest) (hd : Derives j x v ts' rest) (hn : nextState j x = some k) :
    DerivesL s (xs ++ [x]) (vs ++ [v]) (ts ++ ts') rest k :=
  match h with
  | .nil s _ => by
    have := DerivesL.cons (ts' := []) (rest := rest) (by simpa using hd) hn (.nil k rest)
    simpa using this
  | .cons (ts := t1) (ts' := t2) h' hn' hl => by
    have ih := hl.snoc hr hd hn
    subst hr
    have := DerivesL.cons (ts := t1) (ts' := t2 ++ ts') (rest := rest) (by simpa using h') hn' ih
    simpa using this

theorem Stack.pop {lhs : ℕ} (xs : List Sym) : ∀ {st : List (ℕ × Val)} {ts rest : List Token}, Stack st ts rest →
    spells lhs (xs.map Sym.code).reverse (top st) = true →
    ∃ (ts0 ts1 : List Token) (vs : List Val), ts = ts0 ++ ts1 ∧ Stack (st.drop xs.length) ts0 (ts1 ++ rest) ∧
      DerivesL (top (st.drop xs.length)) xs vs ts1 rest (top st) ∧ (st.take xs.length).reverse.map Prod.snd = vs ∧
      (gotoOn (top (st.drop xs.length)) lhs).isSome := by
  induction xs using List.reverseRecOn with
  | nil =>
    intro st ts rest h hs
    refine ⟨ts, [], [], by simp, by simpa using h, by simpa using DerivesL.nil (top st) rest, by simp, ?_⟩
    simpa [spells] using hs
  | append_singleton xs x ih =>
    intro st ts rest h hs
    rw [List.map_append, List.reverse_append] at hs
    simp only [List.map_cons, List.map_nil, List.reverse_cons, List.reverse_nil, List.nil_append, List.singleton_append, spells,
      Bool.and_eq_true, List.all_eq_true, List.mem_filter] at hs
    obtain ⟨h0, hall⟩ := hs
    cases h with
    | nil => simp [top] at h0
    | @push st' y v j ts' ts'' _ hst hd hn =>
      have hm := hall _ ⟨mem_transitions hn, by simp [top]⟩
      have hy : y = x := code_inj (Nat.eq_of_beq_eq_true hm.1)
      subst hy
      obtain ⟨ts0, ts1, vs, rfl, hst0, hl, hvs, hg⟩ := ih hst hm.2
      refine ⟨ts0, ts1 ++ ts'', vs ++ [v], by simp, ?_, ?_, ?_, ?_⟩
      · simpa using hst0
      · simpa [top] using hl.snoc rfl hd hn
      · simp [← hvs]
      · simpa using hg

theorem spells_of_act {s a p : ℕ} (h : act s a = some (.reduce p)) : ∃ r, rules[p - 1]? = some r ∧
    spells (ntCode r.lhs) (r.rhs.map Sym.code).reverse s = true := by
  have hok := reducesOK_all s (act_lt h)
  unfold act at h
  obtain ⟨m, hm⟩ := rowAction_mem h
  have := List.all_eq_true.1 hok _ hm
  simp only at this
  split at this
  · rename_i r hr; exact ⟨r, hr, this⟩
  · cases this

/-! ## Accepting -/

/-- The programs of length one. -/
def acceptOK (s : ℕ) : Bool :=
  (actionData.getD s []).all fun e =>
    match e.2 with
    | .accept => Nat.blt 0 s && Nat.beq e.1 (2 ^ endCode) && (transitions.filter fun e => Nat.beq e.2.2 s).all fun e =>
        Nat.beq e.1 0 && Nat.beq e.2.1 (ntCode .multilineCode)
    | _ => true

set_option maxRecDepth 100000 in
theorem acceptOK_all : ∀ s < 183, acceptOK s = true := by decide +kernel

theorem no_transition_to_start : ∀ e ∈ transitions, e.2.2 ≠ 0 := by decide +kernel

theorem rowAction_mem' {a : ℕ} {x : Action} {row : List (ℕ × Action)} (h : rowAction a row = some x) :
    ∃ m, (m, x) ∈ row ∧ m.testBit a = true := by
  induction row with
  | nil => cases h
  | cons e row ih =>
    obtain ⟨m, y⟩ := e
    simp only [rowAction] at h
    split at h
    · rename_i hb; cases h; exact ⟨m, by simp, hb⟩
    · obtain ⟨m', hm, hb⟩ := ih h; exact ⟨m', by simp [hm], hb⟩

variable {T : Tables} (hT : IsTable T)

include hT in
theorem derives_of_run (n : ℕ) : ∀ (c : Config) (ts : List Token) (v : Val), Stack c.stack ts c.input →
    Yacc.run T n c = some (.ok v) → Derives 0 (.n .multilineCode) v (ts ++ c.input) [] := by
  induction n with
  | zero => intro c ts v _ h; cases h
  | succ n ih =>
    intro c ts v hst h
    obtain ⟨st, input⟩ := c
    simp only [Yacc.run] at h
    have ha : action T (top st) (ahead input) = act (top st) (ahead input) := hT.ahead _ _
    cases hact : act (top st) (ahead input) with
    | none => simp [step, ha, hact] at h
    | some x =>
      cases x with
      | shift j =>
        cases input with
        | nil => simp [step, ha, hact] at h
        | cons t rest =>
          simp only [step, ha, hact] at h
          have hn : nextState (top st) (.t t.kind) = some j := by
            have : act (top st) (kindCode t.kind) = some (.shift j) := hact
            simp [nextState, this]
          have := ih _ (ts ++ [t]) v (Stack.push (ts' := [t]) (by simpa using hst) (.tok (top st) t rest) hn) h
          simpa using this
      | reduce p =>
        obtain ⟨r, hr, hsp⟩ := spells_of_act hact
        obtain ⟨ts0, ts1, vs, rfl, hst0, hl, hvs, hg⟩ := Stack.pop r.rhs hst hsp
        simp only [step, ha, hact, hr, Yacc.reduce, hvs] at h
        cases hv : r.func.run vs with
        | error e => simp [hv] at h
        | ok w =>
          obtain ⟨j, hj⟩ := Option.isSome_iff_exists.1 hg
          have hg' : goto T (top (st.drop r.rhs.length)) r.lhs = some j := by rw [hT.goto]; exact hj
          simp only [hv, hg'] at h
          have hd : Derives (top (st.drop r.rhs.length)) (.n r.lhs) w ts1 input := .node hr hl hact hv
          exact ih ⟨(j, w) :: st.drop r.rhs.length, input⟩ (ts0 ++ ts1) v (Stack.push hst0 hd hj) h
      | accept =>
        have hs := act_lt hact
        have hok := acceptOK_all _ hs
        have hact' := hact
        unfold act at hact'
        obtain ⟨m, hm, hb⟩ := rowAction_mem' hact'
        have h1 := List.all_eq_true.1 hok _ hm
        simp only [Bool.and_eq_true, List.all_eq_true, List.mem_filter] at h1
        obtain ⟨⟨h0, hmask⟩, hall⟩ := h1
        have hend : input = [] := by
          cases input with
          | nil => rfl
          | cons t rest =>
            exfalso
            rw [Nat.eq_of_beq_eq_true hmask] at hb
            have : ∀ k : Kind, (2 ^ endCode).testBit (kindCode k) = false := by intro k; cases k <;> decide
            have hk := this t.kind
            rw [show ahead (t :: rest) = kindCode t.kind from rfl, hk] at hb
            cases hb
        subst hend
        cases hst with
        | nil => simp [top] at h0
        | @push st' y w j ts0 ts1 _ hst0 hd hn =>
          have hm' := hall _ ⟨mem_transitions hn, by simp [top]⟩
          have hy : y = .n .multilineCode := code_inj (Nat.eq_of_beq_eq_true hm'.2)
          have htop : top st' = 0 := Nat.eq_of_beq_eq_true hm'.1
          subst hy
          simp only [step, ha, hact] at h
          cases h
          rw [htop] at hd
          have hnil : st' = [] := by
            cases hst0 with
            | nil => rfl
            | push _ _ hn' => exact absurd htop (no_transition_to_start _ (mem_transitions hn'))
          subst hnil
          cases hst0
          simpa using hd

include hT in
/-- What the parser accepts is derived. -/
theorem run_iff_derives (ts : List Token) (v : Val) (hv : ∃ b, v = .block b) :
    (∃ n, Yacc.run T n (start ts) = some (.ok v)) ↔ Derives 0 (.n .multilineCode) v ts [] := by
  obtain ⟨b, rfl⟩ := hv
  constructor
  · rintro ⟨n, h⟩
    simpa [start] using derives_of_run hT n (start ts) [] _ (.nil _) h
  · exact fun h => parses_of_derives hT h

end PythonDice.Yacc
