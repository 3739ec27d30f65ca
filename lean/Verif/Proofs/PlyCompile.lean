import Verif.Model.PlyCompile
import Verif.Props.PlyLex

/-!
# The parser that asks the lexer for its tokens

It does the same as the parser that is given the list of tokens (`Model/PlyParse.lean`).
-/

namespace PythonDice.PlyCompile

open Lexer (Token Mode Piece)
open PlyLex (Tok Lex tabs tokOf kindName modeName)
open Compiler (placed YaccReport)

variable {dig : Char → Bool}

theorem typeCode_kindName (k : Lexer.Kind) : typeCode (kindName k) = Yacc.kindCode k := by
  cases k <;> decide +kernel

/-- The lexer is about to return these tokens. -/
def Pending (dig : Char → Bool) (data : Text) (l : Lex) (xs : List (Token × ℕ × ℕ)) : Prop :=
  ∃ m, l.state = modeName m ∧ l.lexpos ≤ data.length ∧ placed l.lexpos l.lineno (Lexer.run dig m (data.drop l.lexpos)).1 = xs

/-- What `token` does with a lexer that is about to return tokens. -/
theorem token_pending (data : Text) : ∀ (r n : ℕ) (l : Lex) (xs : List (Token × ℕ × ℕ)), (data.drop l.lexpos).length = r → r + 1 ≤ n →
    Pending dig data l xs →
    ∃ l', match xs with
      | [] => PlyLex.token dig tabs data n l = (none, l') ∧ Pending dig data l' []
      | x :: xs => PlyLex.token dig tabs data n l = (some (tokOf x), l') ∧ Pending dig data l' xs := by
  intro r
  induction r using Nat.strong_induction_on with
  | _ r ih =>
    intro n l xs hr hn ⟨m, hs, hp, hx⟩
    obtain ⟨n, rfl⟩ : ∃ n', n = n' + 1 := ⟨n - 1, by omega⟩
    cases hd : data.drop l.lexpos with
    | nil =>
      rw [hd] at hx
      cases hx
      refine ⟨_, PlyLex.token_nil n hs hd, m, hs, hp, ?_⟩
      dsimp only
      rw [hd]
      rfl
    | cons c cs =>
      rw [hd, Lexer.run_cons] at hx
      rw [PlyLex.turn n hs hd]
      have htext := Lexer.step_text (dig := dig) m c cs
      have hne := Lexer.step_text_ne (dig := dig) m c cs
      generalize Lexer.step dig m c cs = st at htext hne hx ⊢
      obtain ⟨p, m', rest⟩ := st
      dsimp only at htext hne hx ⊢
      have hdrop : data.drop (l.lexpos + p.text.length) = rest := by
        rw [← List.drop_drop, hd, ← htext, List.drop_left]
      have hpos : 0 < p.text.length := List.length_pos_iff.2 hne
      have hsum : p.text.length + rest.length = r := by
        rw [← hr, hd, ← htext, List.length_append]
      have hle : l.lexpos + p.text.length ≤ data.length := by
        have := List.length_drop (i := l.lexpos) (l := data)
        rw [hr] at this
        omega
      have hpend : ∀ ys, placed (l.lexpos + p.text.length) (l.lineno + p.lineno) (Lexer.run dig m' rest).1 = ys →
          Pending dig data (PlyLex.after data p m' l) ys := fun ys h => ⟨m', rfl, hle, by
        show placed (l.lexpos + p.text.length) (l.lineno + p.lineno) (Lexer.run dig m' (data.drop (l.lexpos + p.text.length))).1 = ys
        rw [hdrop]
        exact h⟩
      have key : ∀ ys, placed (l.lexpos + p.text.length) (l.lineno + p.lineno) (Lexer.run dig m' rest).1 = ys → _ := fun ys h =>
        ih rest.length (by omega) n (PlyLex.after data p m' l) ys
          (show (data.drop (l.lexpos + p.text.length)).length = _ by rw [hdrop]) (by omega) (hpend ys h)
      cases p with
      | token t =>
        cases hx
        exact ⟨_, rfl, hpend _ rfl⟩
      | ignored c => exact key xs hx
      | newlines s => exact key xs hx
      | comment s => exact key xs hx
      | quote => exact key xs hx
      | illegal c => exact key xs hx

/-! ## The simulation -/

/-- The symbols of the two parsers; `toks` are all tokens in their places. -/
def SyR (toks : List (Token × ℕ × ℕ)) : PlyParse.Sy → Sy → Prop
  | .tok t rest, .tok t' => ∃ x xs, (x :: xs) <:+ toks ∧ t = x.1 ∧ t' = tokOf x ∧ rest = (x :: xs).map (·.1)
  | .fin, .fin => True
  | .nt x v, .nt y w => x = y ∧ v = w
  | .err, .err => True
  | _, _ => False

/-- The reports for the tokens. -/
def reportsOf (data : Text) (toks : List (Token × ℕ × ℕ)) (bad : List (List Token)) : List YaccReport :=
  bad.filterMap fun ts => (toks[toks.length - ts.length]?).map (Compiler.yaccReport data)

/-- The states of the two parsers. -/
structure StR (dig : Char → Bool) (data : Text) (toks : List (Token × ℕ × ℕ)) (s : PlyParse.St) (s' : St) : Prop where
  states : s'.states = s.states
  syms : List.Forall₂ (SyR toks) s.syms s'.syms
  state : s'.state = s.state
  look : Option.Rel (SyR toks) s.look s'.look
  looks : List.Forall₂ (Option.Rel (SyR toks)) s.looks s'.looks
  count : s'.count = s.count
  errok : s'.errok = s.errok
  lex : ∃ xs, xs <:+ toks ∧ s.input = xs.map (·.1) ∧ Pending dig data s'.lex xs
  bad : s'.bad = reportsOf data toks s.bad
  len : s'.bad.length = s.bad.length

/-- The outcomes of turns. -/
inductive OutR (dig : Char → Bool) (data : Text) (toks : List (Token × ℕ × ℕ)) : PlyParse.Out → Out → Prop
  | ret (v : Option Yacc.Val) (bad : List (List Token)) (h : (reportsOf data toks bad).length = bad.length) : OutR dig data toks (.ret v bad) (.ret v (reportsOf data toks bad))
  | exc (e : Yacc.ParseErr) (bad : List (List Token)) (h : (reportsOf data toks bad).length = bad.length) : OutR dig data toks (.exc e bad) (.exc e (reportsOf data toks bad))
  | more {s : PlyParse.St} {s' : St} (h : StR dig data toks s s') : OutR dig data toks (.more s) (.more s')

variable {data : Text} {toks : List (Token × ℕ × ℕ)}

theorem SyR.type {a : PlyParse.Sy} {b : Sy} (h : SyR toks a b) : b.type = a.type := by
  cases a <;> cases b <;> simp only [SyR] at h
  · obtain ⟨x, xs, -, rfl, rfl, -⟩ := h
    exact typeCode_kindName x.1.kind
  · rfl
  · exact h.1.symm
  · rfl

theorem SyR.value {a : PlyParse.Sy} {b : Sy} (h : SyR toks a b) : b.value = a.value := by
  cases a <;> cases b <;> simp only [SyR] at h
  · obtain ⟨x, xs, -, rfl, rfl, -⟩ := h
    rfl
  · rfl
  · simp [Sy.value, PlyParse.Sy.value, h.2]
  · rfl

theorem values_eq {as : List PlyParse.Sy} {bs : List Sy} (h : List.Forall₂ (SyR toks) as bs) :
    bs.mapM Sy.value = as.mapM PlyParse.Sy.value := by
  induction h with
  | nil => rfl
  | cons h _ ih => rw [List.mapM_cons, List.mapM_cons, ih, h.value]

theorem call_eq (f : Yacc.Func) {as : List PlyParse.Sy} {bs : List Sy} (h : List.Forall₂ (SyR toks) as bs) :
    call f bs = PlyParse.call f as := by
  rw [call, PlyParse.call, values_eq h]
  cases as.mapM PlyParse.Sy.value <;> rfl

theorem fetch_sim {s : PlyParse.St} {s' : St} (h : StR dig data toks s s') :
    SyR toks (PlyParse.fetch s).1 (fetch dig tabs data s').1 ∧ StR dig data toks (PlyParse.fetch s).2 (fetch dig tabs data s').2 := by
  have hlook := h.look
  have hlooks := h.looks
  unfold PlyParse.fetch fetch
  generalize hl : s.look = lk, hl' : s'.look = lk' at hlook ⊢
  cases hlook with
  | some hr => exact ⟨hr, h⟩
  | none =>
    generalize hq : s.looks = ls, hq' : s'.looks = ls' at hlooks ⊢
    cases hlooks with
    | cons hr hrs =>
      have hg : ∀ {a : Option PlyParse.Sy} {b : Option Sy}, Option.Rel (SyR toks) a b → SyR toks (a.getD .fin) (b.getD .fin) := by
        intro a b h
        cases h with
        | some h => exact h
        | none => trivial
      exact ⟨hg hr, { h with look := .some (hg hr), looks := hrs }⟩
    | nil =>
      obtain ⟨xs, hsuf, hin, hpend⟩ := h.lex
      obtain ⟨l', hl⟩ := token_pending data _ (data.length + 1) s'.lex xs rfl (by simp) hpend
      cases xs with
      | nil =>
        obtain ⟨ht, hp⟩ := hl
        rw [ht, hin]
        exact ⟨trivial, { h with look := .some trivial, looks := .nil, lex := ⟨[], hsuf, rfl, hp⟩ }⟩
      | cons x xs =>
        obtain ⟨ht, hp⟩ := hl
        rw [ht, hin]
        have hr : SyR toks (.tok x.1 (x.1 :: xs.map (·.1))) (.tok (tokOf x)) := ⟨x, xs, hsuf, rfl, rfl, rfl⟩
        exact ⟨hr, { h with look := .some hr, looks := .nil,
                            lex := ⟨xs, (List.suffix_cons _ _).trans hsuf, rfl, hp⟩ }⟩

theorem shift_sim (j : ℕ) {s : PlyParse.St} {s' : St} (h : StR dig data toks s s') : OutR dig data toks (PlyParse.shift j s) (shift j s') := by
  have hlen := h.bad ▸ h.len
  have hlook := h.look
  unfold PlyParse.shift shift
  generalize hl : s.look = lk, hl' : s'.look = lk' at hlook ⊢
  cases hlook with
  | some hr =>
    exact .more { h with
      states := by simp [h.states], state := rfl, syms := .cons hr h.syms, look := .none, count := by simp [h.count] }
  | none =>
    dsimp only
    rw [h.bad]
    exact .exc _ _ hlen

theorem forall_tail {α β : Type} {R : α → β → Prop} {as : List α} {bs : List β} (h : List.Forall₂ R as bs) : List.Forall₂ R as.tail bs.tail := by
  cases h with
  | nil => exact .nil
  | cons _ h => exact h

theorem reduce_sim (T : Yacc.Tables) (r : Yacc.Rule) {s : PlyParse.St} {s' : St} (h : StR dig data toks s s') :
    OutR dig data toks (PlyParse.reduce T r s) (reduce T r s') := by
  have hlen := h.bad ▸ h.len
  unfold PlyParse.reduce reduce
  rw [call_eq r.func (List.rel_reverse (List.forall₂_take r.rhs.length h.syms)), h.states, h.bad]
  generalize PlyParse.call r.func (s.syms.take r.rhs.length).reverse = c
  match c with
  | .ok v =>
    dsimp only
    generalize s.states.drop r.rhs.length = st
    match st with
    | [] => exact .exc _ _ hlen
    | q :: qs =>
      dsimp only
      generalize Yacc.goto T q r.lhs = g
      match g with
      | none => exact .exc _ _ hlen
      | some j => exact .more { h with states := rfl, state := rfl, syms := .cons ⟨rfl, rfl⟩ (List.forall₂_drop r.rhs.length h.syms), bad := rfl, len := hlen }
  | .error .syntaxError =>
    dsimp only
    generalize s.states.tail = st
    match st with
    | [] => exact .exc _ _ hlen
    | q :: qs =>
      refine .more ⟨rfl, ?_, rfl, .some trivial, .cons h.look h.looks, rfl, rfl, h.lex, rfl, hlen⟩
      dsimp only
      split_ifs
      · exact h.syms
      · exact forall_tail h.syms
  | .error .indexError => exact .exc _ _ hlen
  | .error .internal => exact .exc _ _ hlen

theorem suffix_get {x : Token × ℕ × ℕ} {xs : List (Token × ℕ × ℕ)} (h : (x :: xs) <:+ toks) :
    toks[toks.length - (x :: xs).length]? = some x := by
  obtain ⟨a, rfl⟩ := h
  simp

theorem report_sim {a : PlyParse.Sy} {b : Sy} (hab : SyR toks a b) {s : PlyParse.St} {s' : St} (h : StR dig data toks s s') :
    StR dig data toks (PlyParse.report a s) (report data b s') := by
  unfold PlyParse.report report
  rw [h.count, h.errok]
  split_ifs with hc
  · cases a <;> cases b <;> simp only [SyR] at hab
    · obtain ⟨x, xs, hsuf, rfl, rfl, rfl⟩ := hab
      refine { h with count := rfl, errok := rfl, bad := ?_, len := by simp [h.len] }
      dsimp only
      rw [reportsOf, List.filterMap_append, ← reportsOf, ← h.bad]
      have hg := suffix_get hsuf
      rw [List.length_cons] at hg
      simp [hg]
      rfl
    all_goals exact { h with count := rfl, errok := rfl }
  · exact { h with count := rfl, errok := rfl }

theorem recover_sim {a : PlyParse.Sy} {b : Sy} (hab : SyR toks a b) {s : PlyParse.St} {s' : St} (h : StR dig data toks s s') :
    OutR dig data toks (PlyParse.recover a s) (recover b s') := by
  obtain ⟨st, sy, q, lk, lks, c, e, inp, bd⟩ := s
  obtain ⟨st', sy', q', lk', lks', c', e', lx, bd'⟩ := s'
  have hlen : (reportsOf data toks bd).length = bd.length := h.bad ▸ h.len
  obtain ⟨hst, hsy, hq, hlk, hlks, hc, he, hlx, hbd, hbl⟩ := h
  dsimp only at hst hsy hq hlk hlks hc he hlx hbd hbl
  subst hst hq hc he
  unfold PlyParse.recover recover
  rw [hab.type]
  dsimp only
  split_ifs with h1 h2 h3
  · exact .more ⟨rfl, hsy, rfl, .none, .nil, rfl, rfl, hlx, hbd, hbl⟩
  · rw [hbd]
    exact .ret _ _ hlen
  · cases hsy with
    | nil => exact .more ⟨rfl, .nil, rfl, .some trivial, .cons (.some hab) hlks, rfl, rfl, hlx, hbd, hbl⟩
    | @cons x y xs ys hxy hr =>
      have hother : OutR dig data toks (.more ⟨st', x :: xs, q', some .err, some a :: lks, c', e', inp, bd⟩)
          (.more ⟨st', y :: ys, q', some .err, some b :: lks', c', e', lx, bd'⟩) :=
        .more ⟨rfl, .cons hxy hr, rfl, .some trivial, .cons (.some hab) hlks, rfl, rfl, hlx, hbd, hbl⟩
      cases x <;> cases y <;> first | exact hxy.elim | exact hother | skip
      exact .more ⟨rfl, .cons hxy hr, rfl, .none, hlks, rfl, rfl, hlx, hbd, hbl⟩
  · rw [hbd]
    generalize st'.tail = st
    match st with
    | [] => exact .exc _ _ hlen
    | p :: ps => exact .more ⟨rfl, forall_tail hsy, rfl, hlk, hlks, rfl, rfl, hlx, rfl, hlen⟩

theorem act_sim (T : Yacc.Tables) (x : Yacc.Action) {s : PlyParse.St} {s' : St} (h : StR dig data toks s s') :
    OutR dig data toks (PlyParse.act T s x) (act T s' x) := by
  have hlen := h.bad ▸ h.len
  cases x with
  | shift j => exact shift_sim j h
  | reduce p =>
    unfold PlyParse.act act
    dsimp only
    generalize Yacc.rules[p - 1]? = r
    cases r with
    | none =>
      dsimp only
      rw [h.bad]
      exact .exc _ _ hlen
    | some r => exact reduce_sim T r h
  | accept =>
    unfold PlyParse.act act
    dsimp only
    rw [h.bad]
    have hs := h.syms
    generalize s.syms = x, s'.syms = y at hs ⊢
    cases hs with
    | nil => exact .exc _ _ hlen
    | cons hpq _ =>
      dsimp only
      rw [hpq.value]
      exact .ret _ _ hlen

theorem turn_sim (T : Yacc.Tables) {s : PlyParse.St} {s' : St} (h : StR dig data toks s s') :
    OutR dig data toks (PlyParse.turn T s) (turn dig tabs data T s') := by
  unfold PlyParse.turn turn
  rw [h.state]
  cases PlyParse.defaulted T s.state with
  | some a => exact act_sim T a h
  | none =>
    obtain ⟨h1, h2⟩ := fetch_sim h
    dsimp only
    rw [h1.type]
    cases Yacc.action T s.state (PlyParse.fetch s).1.type with
    | some a => exact act_sim T a h2
    | none => exact recover_sim h1 (report_sim h1 h2)

theorem run_sim (T : Yacc.Tables) : ∀ (n : ℕ) {s : PlyParse.St} {s' : St}, StR dig data toks s s' →
    run dig tabs data T n s' = (PlyParse.run T n s).map (fun p => (p.result, reportsOf data toks p.illegal)) ∧
      ∀ p, PlyParse.run T n s = some p → (reportsOf data toks p.illegal).length = p.illegal.length
  | 0, _, _, _ => ⟨rfl, fun _ h => nomatch h⟩
  | n + 1, s, s', h => by
    rw [run, PlyParse.run]
    have hs := turn_sim T h
    generalize PlyParse.turn T s = o, turn dig tabs data T s' = o' at hs
    cases hs with
    | ret v bad hl =>
      refine ⟨rfl, fun p hp => ?_⟩
      cases hp
      exact hl
    | exc e bad hl =>
      refine ⟨rfl, fun p hp => ?_⟩
      cases hp
      exact hl
    | more h => exact run_sim T n h

/-- The start, after a pass over the text that has ended outside of a literal. -/
theorem start_sim (l : Lex) (hl : l.state = modeName .initial) :
    StR dig data (placed 0 l.lineno (Lexer.run dig .initial data).1) (PlyParse.start (Lexer.tokens dig data)) (start l) where
  states := rfl
  syms := .cons trivial .nil
  state := rfl
  look := .none
  looks := .nil
  count := rfl
  errok := rfl
  lex := ⟨_, List.suffix_rfl, (map_placed _ 0 l.lineno).symm, .initial, hl, Nat.zero_le _, rfl⟩
  bad := rfl
  len := rfl

end PythonDice.PlyCompile
