import Verif.Proofs.Tables

/-!
# The parser as a relation on trees

`Derives s x v ts rest`: in state `s`, with `ts ++ rest` to be read, the parser makes of `ts` a symbol `x` with value `v`.
-/

namespace PythonDice.Yacc

open Lexer (Kind Token)

/-- The state after a symbol. -/
def nextState (s : ℕ) : Sym → Option ℕ
  | .t k =>
    match act s (kindCode k) with
    | some (.shift j) => some j
    | _ => none
  | .n x => gotoOn s (ntCode x)

/-- Tables with the entries written out. -/
structure IsTable (T : Tables) : Prop where
  action : ∀ s a, 1 ≤ a → a ≤ 42 → Yacc.action T s a = act s a
  goto : ∀ s x, Yacc.goto T s x = gotoOn s (ntCode x)

theorem isTable : IsTable tableData := ⟨action_eq, goto_eq⟩

theorem IsTable.ahead {T : Tables} (hT : IsTable T) (s : ℕ) (ts : List Token) : Yacc.action T s (Yacc.ahead ts) = act s (Yacc.ahead ts) :=
  hT.action s _ (ahead_bounds ts).1 (ahead_bounds ts).2

variable {T : Tables} (hT : IsTable T)

mutual

/-- A symbol with its value. -/
inductive Derives : ℕ → Sym → Val → List Token → List Token → Prop
  | tok (s : ℕ) (t : Token) (rest : List Token) : Derives s (.t t.kind) (.text t.value) [t] rest
  | node {s j p : ℕ} {r : Rule} {vs : List Val} {v : Val} {ts rest : List Token} (hr : rules[p - 1]? = some r)
      (hl : DerivesL s r.rhs vs ts rest j) (ha : act j (ahead rest) = some (.reduce p)) (hv : r.func.run vs = .ok v) :
      Derives s (.n r.lhs) v ts rest

/-- A list of symbols with their values, and the state that is reached. -/
inductive DerivesL : ℕ → List Sym → List Val → List Token → List Token → ℕ → Prop
  | nil (s : ℕ) (rest : List Token) : DerivesL s [] [] [] rest s
  | cons {s s' j : ℕ} {x : Sym} {xs : List Sym} {v : Val} {vs : List Val} {ts ts' rest : List Token}
      (h : Derives s x v ts (ts' ++ rest)) (hn : nextState s x = some s') (hl : DerivesL s' xs vs ts' rest j) :
      DerivesL s (x :: xs) (v :: vs) (ts ++ ts') rest j

end

/-! ## From derivations to runs -/

/-- Some turns of the loop lead from one configuration to another. -/
inductive Steps (T : Tables) : Config → Config → Prop
  | refl (c) : Steps T c c
  | head {c d e} (h : step T c = .more d) (hs : Steps T d e) : Steps T c e

theorem Steps.trans {c d e : Config} (h : Steps T c d) (h' : Steps T d e) : Steps T c e := by
  induction h with
  | refl => exact h'
  | head h _ ih => exact .head h (ih h')

theorem Steps.run {c d : Config} (h : Steps T c d) {n : ℕ} {r} (hd : Yacc.run T n d = some r) : ∃ m, Yacc.run T m c = some r := by
  induction h with
  | refl => exact ⟨n, hd⟩
  | head h _ ih =>
    obtain ⟨m, hm⟩ := ih hd
    exact ⟨m + 1, by simp [Yacc.run, h, hm]⟩

/-- The configuration after pushing a list of values. -/
def pushes : List (ℕ × Val) → List (ℕ × Val) → List (ℕ × Val)
  | st, [] => st
  | st, e :: es => pushes (e :: st) es

theorem pushes_eq (st es : List (ℕ × Val)) : pushes st es = es.reverse ++ st := by
  induction es generalizing st with
  | nil => rfl
  | cons e es ih => simp [pushes, ih]

include hT in
theorem step_shift {st : List (ℕ × Val)} {t : Token} {ts : List Token} {j : ℕ}
    (h : act (top st) (kindCode t.kind) = some (.shift j)) : step T ⟨st, t :: ts⟩ = .more ⟨(j, .text t.value) :: st, ts⟩ := by
  have e : action T (top st) (ahead (t :: ts)) = some (.shift j) := by rw [hT.ahead]; exact h
  simp only [step, e]

include hT in
theorem step_reduce {st : List (ℕ × Val)} {ts : List Token} {p : ℕ} {r : Rule} (h : act (top st) (ahead ts) = some (.reduce p))
    (hr : rules[p - 1]? = some r) : step T ⟨st, ts⟩ = reduce T r ⟨st, ts⟩ := by
  have e : action T (top st) (ahead ts) = some (.reduce p) := by rw [hT.ahead]; exact h
  simp only [step, e, hr]

include hT in
theorem reduce_push {r : Rule} {st es : List (ℕ × Val)} {ts : List Token} {v : Val} {j : ℕ} (hlen : es.length = r.rhs.length)
    (hv : r.func.run (es.map Prod.snd) = .ok v) (hg : gotoOn (top st) (ntCode r.lhs) = some j) :
    reduce T r ⟨pushes st es, ts⟩ = .more ⟨(j, v) :: st, ts⟩ := by
  have h1 : (pushes st es).take r.rhs.length = es.reverse := by
    rw [pushes_eq, ← hlen, List.take_left' (by simp)]
  have h2 : (pushes st es).drop r.rhs.length = st := by
    rw [pushes_eq, ← hlen, List.drop_left' (by simp)]
  have h3 : goto T (top st) r.lhs = some j := by rw [hT.goto]; exact hg
  simp only [reduce, h1, h2, List.reverse_reverse, hv, h3]

mutual

theorem Derives.steps (hT : IsTable T) {s : ℕ} {x : Sym} {v : Val} {ts rest : List Token} (h : Derives s x v ts rest) {j : ℕ}
    (hn : nextState s x = some j) (st : List (ℕ × Val)) (hs : top st = s) :
    Steps T ⟨st, ts ++ rest⟩ ⟨(j, v) :: st, rest⟩ :=
  match h with
  | .tok s t rest => by
    refine .head (d := ⟨(j, .text t.value) :: st, rest⟩) (step_shift hT ?_) (.refl _)
    rw [hs]
    simp only [nextState] at hn
    split at hn
    · rename_i k hk
      rw [hk]
      exact congrArg some (congrArg Action.shift (Option.some.inj hn))
    · cases hn
  | .node (p := p) (r := r) (j := k) (vs := vs) hr hl ha hv => by
    obtain ⟨es, he, hvs, htop, hlen⟩ := hl.steps hT st hs
    refine he.trans (.head ?_ (.refl _))
    rw [step_reduce hT (p := p) (r := r) (by rw [htop]; exact ha) hr]
    exact reduce_push hT hlen (by rw [hvs]; exact hv) (by rw [hs]; exact hn)

theorem DerivesL.steps (hT : IsTable T) {s : ℕ} {xs : List Sym} {vs : List Val} {ts rest : List Token} {j : ℕ} (h : DerivesL s xs vs ts rest j)
    (st : List (ℕ × Val)) (hs : top st = s) :
    ∃ es : List (ℕ × Val), Steps T ⟨st, ts ++ rest⟩ ⟨pushes st es, rest⟩ ∧ es.map Prod.snd = vs ∧ top (pushes st es) = j ∧
      es.length = xs.length :=
  match h with
  | .nil s rest => ⟨[], .refl _, rfl, hs, rfl⟩
  | .cons (s' := s') (v := v) (ts := t1) (ts' := t2) hd hn hl => by
    have h1 := hd.steps hT hn st hs
    obtain ⟨es, he, hvs, htop, hlen⟩ := hl.steps hT ((s', v) :: st) rfl
    refine ⟨(s', v) :: es, ?_, by simp [hvs], htop, by simp [hlen]⟩
    rw [List.append_assoc]
    exact h1.trans he

end

include hT in
/-- A program that the parser is derived to accept is accepted. -/
theorem parses_of_derives {ts : List Token} {b : Compiler.Block} (h : Derives 0 (.n .multilineCode) (.block b) ts []) :
    ∃ n, Yacc.run T n (start ts) = some (.ok (.block b)) := by
  obtain ⟨j, hj, hacc⟩ : ∃ j, nextState 0 (.n .multilineCode) = some j ∧ act j endCode = some .accept := by
    have : ∃ j ∈ List.range 183, nextState 0 (.n .multilineCode) = some j ∧ act j endCode = some .accept := by decide +kernel
    obtain ⟨j, _, h⟩ := this
    exact ⟨j, h⟩
  have hs := h.steps hT hj [] rfl
  rw [List.append_nil] at hs
  have hd : Yacc.run T 1 ⟨[(j, .block b)], []⟩ = some (.ok (.block b)) := by
    have e : action T (top [(j, Val.block b)]) (ahead []) = some .accept := by rw [hT.ahead]; exact hacc
    simp only [Yacc.run, step, e]
  exact hs.run hd

end PythonDice.Yacc
