import Mathlib.Tactic.IntervalCases
import Verif.Proofs.Expressions

/-!
# Lemmas on parsing compiled expressions (C35)
-/

namespace PythonDice

open Spec Compiler
open Spec.Py (Tok opHead binOps unaryOps parse chain loop power atom trailers args)

/-! ## Sufficient fuel -/

/-- With enough fuel, the result is `r`. -/
def Ev {α : Type} (f : ℕ → Option α) (r : α) : Prop := ∃ N, ∀ n, N ≤ n → f n = some r

theorem Ev.step {α : Type} {f g : ℕ → Option α} {r : α} (h : Ev g r) (hfg : ∀ n, f (n + 1) = g n) : Ev f r := by
  obtain ⟨N, hN⟩ := h
  refine ⟨N + 1, fun n hn => ?_⟩
  obtain ⟨m, rfl⟩ : ∃ m, n = m + 1 := ⟨n - 1, by omega⟩
  rw [hfg]
  exact hN m (by omega)

theorem Ev.const {α : Type} (r : α) : Ev (fun _ => some r) r := ⟨0, fun _ _ => rfl⟩

theorem Ev.bind {α β : Type} {f : ℕ → Option α} {g : α → ℕ → Option β} {a : α} {r : β} (hf : Ev f a) (hg : Ev (g a) r) :
    Ev (fun n => (f n).bind fun x => g x n) r := by
  obtain ⟨N, hN⟩ := hf
  obtain ⟨M, hM⟩ := hg
  refine ⟨max N M, fun n hn => ?_⟩
  simp only [hN n (by omega), Option.bind_some, hM n (by omega)]

theorem Ev.map {α β : Type} {f : ℕ → Option α} {a : α} (hf : Ev f a) (g : α → β) : Ev (fun n => (f n).map g) (g a) := by
  obtain ⟨N, hN⟩ := hf
  exact ⟨N, fun n hn => by simp only [hN n hn, Option.map_some]⟩

theorem Ev.congr {α : Type} {f g : ℕ → Option α} {r : α} (h : Ev g r) (hfg : ∀ n, f n = g n) : Ev f r := by
  obtain ⟨N, hN⟩ := h
  exact ⟨N, fun n hn => by rw [hfg, hN n hn]⟩

/-! ## Levels -/

/-- An expression of level `k` ends before these tokens. -/
def Stops (k : ℕ) (rest : List Tok) : Prop :=
  ∀ o, opHead rest = some o → (o ≠ ['('] ∧ o ≠ ['['] ∧ (k ≤ 6 → o ≠ ['*', '*'])) ∧ ∀ j, k ≤ j → o ∉ binOps j

theorem Stops.mono {k j : ℕ} {rest : List Tok} (h : Stops k rest) (hkj : k ≤ j) : Stops j rest :=
  fun o ho => ⟨⟨(h o ho).1.1, (h o ho).1.2.1, fun h6 => (h o ho).1.2.2 (by omega)⟩, fun i hi => (h o ho).2 i (by omega)⟩

theorem binOps_big {j : ℕ} (h : 5 ≤ j) : binOps j = [] := by
  obtain ⟨m, rfl⟩ : ∃ m, j = m + 5 := ⟨j - 5, by omega⟩
  rfl

/-- An operator of a level ends what binds tighter. -/
theorem stops_op {k : ℕ} {o : List Char} (h : o ∈ binOps k) (ts : List Tok) : Stops (k + 1) (.op o :: ts) := by
  intro o' ho
  cases ho
  have hk : k < 5 := by
    by_contra hk
    rw [binOps_big (by omega)] at h
    cases h
  constructor
  · interval_cases k <;> revert o <;> decide
  · intro j hj
    by_cases hj5 : 5 ≤ j
    · rw [binOps_big hj5]
      exact List.not_mem_nil
    · have : j < 5 := by omega
      interval_cases k <;> interval_cases j <;> first | omega | (revert o; decide)

theorem stops_nil (k : ℕ) : Stops k [] := fun _ h => by cases h

theorem stops_close {o : List Char} (h : o ∈ [[')'], [']'], [',']]) (k : ℕ) (ts : List Tok) : Stops k (.op o :: ts) := by
  intro o' ho
  cases ho
  have h1 : o ≠ ['('] ∧ o ≠ ['['] ∧ o ≠ ['*', '*'] := by revert o; decide
  refine ⟨⟨h1.1, h1.2.1, fun _ => h1.2.2⟩, fun j _ => ?_⟩
  by_cases hj5 : 5 ≤ j
  · rw [binOps_big hj5]
    exact List.not_mem_nil
  · have : j < 5 := by omega
    interval_cases j <;> revert o <;> decide

/-- The tokens are read as the expression, at a level. -/
def P (k : ℕ) (ts : List Tok) (e : Py.Expr) : Prop :=
  ∀ rest, Stops k rest → Ev (fun n => parse n k (ts ++ rest)) (e, rest)

/-- The same, up to a further operator of the level. -/
def L (k : ℕ) (ts : List Tok) (e : Py.Expr) : Prop :=
  ∀ rest r, Stops (k + 1) rest → Ev (fun n => loop n k e rest) r → Ev (fun n => parse n k (ts ++ rest)) r

/-- How the tokens begin. -/
def Begins (k : ℕ) (ts : List Tok) : Prop :=
  ts ≠ [] ∧ ∀ o, opHead ts = some o → o ≠ [')'] ∧ o ≠ [']'] ∧ (6 ≤ k → o ∉ unaryOps)

theorem opHead_append {ts : List Tok} (h : ts ≠ []) (rest : List Tok) : opHead (ts ++ rest) = opHead ts := by
  cases ts with
  | nil => exact absurd rfl h
  | cons t ts => cases t <;> rfl

theorem Begins.append {k j : ℕ} {ts : List Tok} (h : Begins k ts) (hj : 6 ≤ j → 6 ≤ k) (us : List Tok) : Begins j (ts ++ us) :=
  ⟨by simp [h.1], fun o ho => by
    rw [opHead_append h.1] at ho
    exact ⟨(h.2 o ho).1, (h.2 o ho).2.1, fun h6 => (h.2 o ho).2.2 (hj h6)⟩⟩

/-! ## What the parser does -/

theorem parse0 (n : ℕ) (ts : List Tok) : parse (n + 1) 0 ts = (parse n 1 ts).bind fun r => chain n false r.1 r.2 := by
  rw [parse, if_pos rfl]

theorem parseK {k : ℕ} (h1 : 1 ≤ k) (h4 : k ≤ 4) (n : ℕ) (ts : List Tok) :
    parse (n + 1) k ts = (parse n (k + 1) ts).bind fun r => loop n k r.1 r.2 := by
  rw [parse, if_neg (by omega), if_pos h4]

theorem parse5_sign {o : List Char} (h : o ∈ unaryOps) (n : ℕ) (ts : List Tok) :
    parse (n + 1) 5 (.op o :: ts) = (parse n 5 ts).map fun r => (.unary o r.1, r.2) := by
  rw [parse, if_neg (by omega), if_neg (by omega), if_pos rfl]
  simp only [opHead, if_pos h, List.tail_cons]

theorem parse5 {ts : List Tok} (h : ∀ o, opHead ts = some o → o ∉ unaryOps) (n : ℕ) : parse (n + 1) 5 ts = parse n 6 ts := by
  rw [parse, if_neg (by omega), if_neg (by omega), if_pos rfl]
  cases ho : opHead ts with
  | none => rfl
  | some o => simp only [if_neg (h o ho)]

theorem parse6 (n : ℕ) (ts : List Tok) : parse (n + 1) 6 ts = (parse n 7 ts).bind fun r => power n r.1 r.2 := by
  rw [parse, if_neg (by omega), if_neg (by omega), if_neg (by omega), if_pos rfl]

theorem parse7 (n : ℕ) (ts : List Tok) : parse (n + 1) 7 ts = (atom n ts).bind fun r => trailers n r.1 r.2 := by
  rw [parse, if_neg (by omega), if_neg (by omega), if_neg (by omega), if_neg (by omega)]

theorem chain_stop {rest : List Tok} (h : ∀ o, opHead rest = some o → o ∉ binOps 0) (b : Bool) (a : Py.Expr) :
    Ev (fun n => chain n b a rest) (a, rest) := by
  refine (Ev.const _).step fun n => ?_
  rw [chain]
  cases ho : opHead rest with
  | none => rfl
  | some o => simp only [if_neg (h o ho)]

theorem loop_stop {k : ℕ} {rest : List Tok} (h : ∀ o, opHead rest = some o → o ∉ binOps k) (a : Py.Expr) :
    Ev (fun n => loop n k a rest) (a, rest) := by
  refine (Ev.const _).step fun n => ?_
  rw [loop]
  cases ho : opHead rest with
  | none => rfl
  | some o => simp only [if_neg (h o ho)]

theorem power_stop {rest : List Tok} (h : ∀ o, opHead rest = some o → o ≠ ['*', '*']) (a : Py.Expr) :
    Ev (fun n => power n a rest) (a, rest) := by
  refine (Ev.const _).step fun n => ?_
  rw [power]
  cases ho : opHead rest with
  | none => rfl
  | some o => simp only [if_neg (show o ≠ "**".toList from h o ho)]

theorem trailers_stop {k : ℕ} {rest : List Tok} (h : Stops k rest) (a : Py.Expr) : Ev (fun n => trailers n a rest) (a, rest) := by
  refine (Ev.const _).step fun n => ?_
  rw [trailers]
  cases ho : opHead rest with
  | none => rfl
  | some o =>
    have := (h o ho).1
    simp only [if_neg (show o ≠ "(".toList from this.1), if_neg (show o ≠ "[".toList from this.2.1)]

/-! ## Descending through the levels -/

theorem P.six {ts : List Tok} {e : Py.Expr} (h : P 7 ts e) : P 6 ts e := by
  intro rest hs
  refine ((h rest (hs.mono (by omega))).bind ?_).step fun n => parse6 n _
  exact power_stop (fun o ho => (hs o ho).1.2.2 (le_refl 6)) e

theorem P.five {ts : List Tok} {e : Py.Expr} (h : P 6 ts e) (hb : Begins 6 ts) : P 5 ts e := by
  intro rest hs
  refine (h rest (hs.mono (by omega))).step fun n => parse5 (fun o ho => ?_) n
  rw [opHead_append hb.1] at ho
  exact (hb.2 o ho).2.2 (by omega)

theorem P.toL {k : ℕ} (h1 : 1 ≤ k) (h4 : k ≤ 4) {ts : List Tok} {e : Py.Expr} (h : P (k + 1) ts e) : L k ts e :=
  fun rest _ hs hr => ((h rest hs).bind hr).step fun n => parseK h1 h4 n _

theorem L.toP {k : ℕ} {ts : List Tok} {e : Py.Expr} (h : L k ts e) : P k ts e :=
  fun rest hs => h rest _ (hs.mono (by omega)) (loop_stop (fun o ho => (hs o ho).2 k (le_refl k)) e)

theorem P.zero {ts : List Tok} {e : Py.Expr} (h : P 1 ts e) : P 0 ts e := by
  intro rest hs
  refine ((h rest (hs.mono (by omega))).bind ?_).step fun n => parse0 n _
  exact chain_stop (fun o ho => (hs o ho).2 0 (le_refl 0)) false e

/-- Everything about the tokens of an expression whose outermost operator has a level. -/
structure Good (k : ℕ) (ts : List Tok) (e : Py.Expr) : Prop where
  parses : P k ts e
  loops : 1 ≤ k → k ≤ 4 → L k ts e
  begins : Begins k ts

theorem Begins.mono {k j : ℕ} (hjk : j ≤ k) {ts : List Tok} (h : Begins k ts) : Begins j ts :=
  ⟨h.1, fun o ho => ⟨(h.2 o ho).1, (h.2 o ho).2.1, fun hj => (h.2 o ho).2.2 (by omega)⟩⟩

theorem Good.pred {k : ℕ} (hk : k ≤ 6) {ts : List Tok} {e : Py.Expr} (h : Good (k + 1) ts e) : Good k ts e := by
  have hb := h.begins.mono (Nat.le_succ k)
  have hp := h.parses
  by_cases h6 : k = 6
  · subst h6
    exact ⟨hp.six, fun _ h => absurd h (by omega), hb⟩
  by_cases h5 : k = 5
  · subst h5
    exact ⟨hp.five h.begins, fun _ h => absurd h (by omega), hb⟩
  by_cases h0 : k = 0
  · subst h0
    exact ⟨hp.zero, fun h _ => absurd h (by omega), hb⟩
  have hl := hp.toL (k := k) (by omega) (by omega)
  exact ⟨hl.toP, fun _ _ => hl, hb⟩

theorem Good.mono {k j : ℕ} (hk : k ≤ 7) (hjk : j ≤ k) {ts : List Tok} {e : Py.Expr} (h : Good k ts e) : Good j ts e := by
  induction k with
  | zero => rw [show j = 0 by omega]; exact h
  | succ k ih =>
    by_cases hj : j = k + 1
    · rw [hj]; exact h
    · exact ih (by omega) (by omega) (h.pred (by omega))

/-! ## Building expressions -/

theorem good_bin {k : ℕ} (h1 : 1 ≤ k) (h4 : k ≤ 4) {o : List Char} (ho : o ∈ binOps k) {l r : List Tok} {a b : Py.Expr}
    (hl : Good k l a) (hr : Good (k + 1) r b) : Good k (l ++ .op o :: r) (.bin o a b) := by
  have key : L k (l ++ .op o :: r) (.bin o a b) := by
    intro rest x hs hx
    rw [List.append_assoc, List.cons_append]
    refine hl.loops h1 h4 _ _ (stops_op ho _) ?_
    refine ((hr.parses rest hs).bind (g := fun x n => loop n k (.bin o a x.1) x.2) hx).step fun n => ?_
    rw [loop]
    simp only [opHead, if_pos ho, List.tail_cons]
  exact ⟨key.toP, fun _ _ => key, hl.begins.append (fun h => h) _⟩

theorem good_cmp {o : List Char} (ho : o ∈ binOps 0) {l r : List Tok} {a b : Py.Expr} (hl : Good 1 l a) (hr : Good 1 r b) :
    Good 0 (l ++ .op o :: r) (.cmp false o a b) := by
  refine ⟨?_, fun h _ => absurd h (by omega), hl.begins.append (fun h => by omega) _⟩
  intro rest hs
  rw [List.append_assoc, List.cons_append]
  refine ((hl.parses _ (stops_op ho _)).bind ?_).step fun n => parse0 n _
  refine ((hr.parses rest (hs.mono (by omega))).bind (g := fun x n => chain n true (.cmp false o a x.1) x.2)
    (chain_stop (fun o ho => (hs o ho).2 0 (le_refl 0)) true _)).step fun n => ?_
  rw [chain]
  simp only [opHead, if_pos ho, List.tail_cons]

theorem good_pow {l r : List Tok} {a b : Py.Expr} (hl : Good 7 l a) (hr : Good 5 r b) :
    Good 6 (l ++ .op ['*', '*'] :: r) (.bin ['*', '*'] a b) := by
  refine ⟨?_, fun _ h => absurd h (by omega), hl.begins.append (fun h => by omega) _⟩
  intro rest hs
  rw [List.append_assoc, List.cons_append]
  have h7 : Stops 7 (.op ['*', '*'] :: (r ++ rest)) := by
    intro o ho
    cases ho
    exact ⟨⟨by decide, by decide, fun h => absurd h (by omega)⟩, fun j hj => by rw [binOps_big (by omega)]; exact List.not_mem_nil⟩
  refine ((hl.parses _ h7).bind ?_).step fun n => parse6 n _
  have h5 : Stops 5 rest := fun o ho => ⟨⟨(hs o ho).1.1, (hs o ho).1.2.1, fun _ => (hs o ho).1.2.2 (le_refl 6)⟩,
    fun j hj => by rw [binOps_big hj]; exact List.not_mem_nil⟩
  refine ((hr.parses rest h5).map fun r => (Py.Expr.bin ['*', '*'] a r.1, r.2)).step fun n => ?_
  rw [power]
  rfl

theorem good_sign {o : List Char} (ho : o ∈ unaryOps) {ts : List Tok} {e : Py.Expr} (h : Good 5 ts e) :
    Good 5 (.op o :: ts) (.unary o e) := by
  refine ⟨fun rest hs => ?_, fun _ h => absurd h (by omega), by simp, fun o' h' => ?_⟩
  · exact ((h.parses rest hs).map fun r => (Py.Expr.unary o r.1, r.2)).step fun n => parse5_sign ho n _
  · cases h'
    refine ⟨?_, ?_, fun h => absurd h (by omega)⟩ <;> (revert o; decide)

/-- An atom that no trailer follows. -/
theorem good_atom {ts : List Tok} {e : Py.Expr} (hb : Begins 7 ts)
    (h : ∀ rest r, Ev (fun n => trailers n e rest) r → Ev (fun n => parse n 7 (ts ++ rest)) r) : Good 7 ts e :=
  ⟨fun rest hs => h rest _ (trailers_stop hs e), fun _ h => absurd h (by omega), hb⟩

theorem parse_atom {ts : List Tok} {e : Py.Expr} (h : ∀ rest, Ev (fun n => atom n (ts ++ rest)) (e, rest)) (rest : List Tok)
    (r : Py.Expr × List Tok) (hr : Ev (fun n => trailers n e rest) r) : Ev (fun n => parse n 7 (ts ++ rest)) r :=
  ((h rest).bind (g := fun x n => trailers n x.1 x.2) hr).step fun n => parse7 n _

theorem good_int (s : List Char) : Good 7 [.int s] (.int s) :=
  good_atom ⟨by simp, fun _ h => by cases h⟩ (parse_atom fun _ => (Ev.const _).step fun _ => rfl)

theorem good_float (a b : List Char) : Good 7 [.float a b] (.float a b) :=
  good_atom ⟨by simp, fun _ h => by cases h⟩ (parse_atom fun _ => (Ev.const _).step fun _ => rfl)

theorem good_fstr (ps : List Py.FPiece) : Good 7 [.fstr ps] (.fstr ps) :=
  good_atom ⟨by simp, fun _ h => by cases h⟩ (parse_atom fun _ => (Ev.const _).step fun _ => rfl)

theorem good_str (s : List Char) : Good 7 [.str s] (.str s) :=
  good_atom ⟨by simp, fun _ h => by cases h⟩ (parse_atom fun _ => (Ev.const _).step fun _ => rfl)

theorem parse_name (s : List Char) (rest : List Tok) (r : Py.Expr × List Tok) (hr : Ev (fun n => trailers n (.name s) rest) r) :
    Ev (fun n => parse n 7 (.name s :: rest)) r :=
  parse_atom (ts := [.name s]) (fun _ => (Ev.const _).step fun _ => rfl) rest r hr

theorem good_name (s : List Char) : Good 7 [.name s] (.name s) :=
  good_atom ⟨by simp, fun _ h => by cases h⟩ (parse_name s)

theorem good_paren {k : ℕ} (hk : k ≤ 7) {ts : List Tok} {e : Py.Expr} (h : Good k ts e) : Good 7 (.op ['('] :: (ts ++ [.op [')']])) e := by
  refine good_atom ⟨by simp, fun o ho => by cases ho; decide⟩ (parse_atom fun rest => ?_)
  have h0 := (h.mono hk (Nat.zero_le k)).parses (.op [')'] :: rest) (stops_close (by decide) 0 rest)
  refine (h0.bind (g := fun r _ => if opHead r.2 = some ")".toList then some (r.1, r.2.tail) else none)
    ((Ev.const (e, rest)).congr fun _ => if_pos rfl)).step fun n => ?_
  rw [List.cons_append, List.append_assoc, atom]
  rfl

/-- Reading arguments. -/
theorem args_good {close : List Char} (hc : close ∈ [[')'], [']']]) {tss : List (List Tok)} {es : List Py.Expr}
    (h : List.Forall₂ (Good 0) tss es) (rest : List Tok) :
    Ev (fun n => args n close (commas tss ++ .op close :: rest)) (toArgs es, rest) := by
  have hcl : ∀ {ts : List Tok}, Begins 0 ts → ∀ us, opHead (ts ++ us) ≠ some close := by
    intro ts hb us ho
    rw [opHead_append hb.1] at ho
    have := hb.2 _ ho
    rcases List.mem_cons.1 hc with rfl | hc
    · exact this.1 rfl
    · rcases List.mem_cons.1 hc with rfl | hc
      · exact this.2.1 rfl
      · cases hc
  induction h with
  | nil =>
    refine (Ev.const _).step fun n => ?_
    rw [args]
    exact if_pos rfl
  | @cons ts e tss es ht hts ih =>
    cases hts with
    | nil =>
      have h0 := ht.parses (.op close :: rest) (stops_close (List.mem_append_left [[',']] hc) 0 rest)
      refine (h0.bind (g := fun r n => if opHead r.2 = some ",".toList then (args n close r.2.tail).map fun s => (.cons r.1 s.1, s.2)
        else if opHead r.2 = some close then some (.cons r.1 .nil, r.2.tail) else none) ?_).step fun n => ?_
      · refine (Ev.const _).congr fun n => ?_
        rw [if_neg]
        · exact if_pos rfl
        · simp only [opHead]
          rintro ⟨⟩
          revert hc
          decide
      · show args (n + 1) close (ts ++ .op close :: rest) = _
        rw [args, if_neg (hcl ht.begins _)]
    | @cons us f uss fs hu huss =>
      have h0 := ht.parses (.op [','] :: (commas (us :: uss) ++ .op close :: rest)) (stops_close (by decide) 0 _)
      refine (h0.bind (g := fun r n => if opHead r.2 = some ",".toList then (args n close r.2.tail).map fun s => (.cons r.1 s.1, s.2)
        else if opHead r.2 = some close then some (.cons r.1 .nil, r.2.tail) else none) ?_).step fun n => ?_
      · exact (ih.map fun s => (Py.Args.cons e s.1, s.2)).congr fun n => if_pos rfl
      · show args (n + 1) close ((ts ++ .op [','] :: commas (us :: uss)) ++ .op close :: rest) = _
        rw [List.append_assoc, List.cons_append, args, if_neg (hcl ht.begins _)]

theorem good_call (f : List Char) {tss : List (List Tok)} {es : List Py.Expr} (h : List.Forall₂ (Good 0) tss es) :
    Good 7 (callToks f tss) (.call (.name f) (toArgs es)) := by
  refine good_atom ⟨by simp [callToks], fun _ h => by cases h⟩ fun rest r hr => ?_
  have e : callToks f tss ++ rest = .name f :: .op ['('] :: (commas tss ++ .op [')'] :: rest) := by simp [callToks]
  rw [e]
  refine parse_name f _ r ?_
  refine ((args_good (close := [')']) (by decide) h rest).bind (g := fun r n => trailers n (.call (.name f) r.1) r.2) hr).step fun n => ?_
  rw [trailers]
  rfl

theorem good_list {tss : List (List Tok)} {es : List Py.Expr} (h : List.Forall₂ (Good 0) tss es) :
    Good 7 (.op ['['] :: (commas tss ++ [.op [']']])) (.list (toArgs es)) := by
  refine good_atom ⟨by simp, fun o ho => by cases ho; decide⟩ (parse_atom fun rest => ?_)
  refine ((args_good (close := [']']) (by decide) h rest).map fun r => (Py.Expr.list r.1, r.2)).step fun n => ?_
  rw [List.cons_append, List.append_assoc, atom]
  rfl

theorem good_vars (x : List Char) :
    Good 7 [.name "vars".toList, .op ['['], .str x, .op [']']] (.index (.name "vars".toList) (.str x)) := by
  refine good_atom ⟨by simp, fun _ h => by cases h⟩ fun rest r hr => ?_
  refine parse_name _ _ r ?_
  have h0 := ((good_str x).mono (le_refl 7) (Nat.zero_le 7)).parses (.op [']'] :: rest) (stops_close (by decide) 0 rest)
  refine (h0.bind (g := fun r n => if opHead r.2 = some "]".toList then trailers n (.index (.name "vars".toList) r.1) r.2.tail else none)
    (hr.congr fun n => if_pos rfl)).step fun n => ?_
  rw [trailers]
  rfl

/-! ## Compiled expressions -/

/-- The level of the text of an expression. -/
def pyLevel (fl : Flags) : Compiler.Expr → ℕ
  | .bin op _ _ =>
    match op with
    | .add | .sub => 3
    | .mul | .div => 4
    | .pow => 6
    | .at_ => 7
    | .and_ => if fl.opOnInt then 7 else 2
    | .or_ => if fl.opOnInt then 7 else 1
    | _ => 0
  | .unary op _ =>
    match op with
    | .not_ => if fl.opOnInt then 7 else 5
    | _ => 5
  | _ => 7

theorem pyLevel_le (fl : Flags) (e : Compiler.Expr) : pyLevel fl e ≤ 7 := by
  unfold pyLevel
  split
  · split <;> first | omega | (split <;> omega)
  · split <;> first | omega | (split <;> omega)
  · omega

/-- The style of the flags. -/
def Compiler.Flags.style (fl : Flags) : Style := ⟨fl.nonLocal, fl.libConflict, fl.opOnInt⟩

/-- Lower bounds for the level of a text. -/
theorem pyLevel_ge (fl : Flags) (e : Compiler.Expr) :
    (4 ≤ level e → 3 ≤ pyLevel fl e) ∧ (5 ≤ level e → 4 ≤ pyLevel fl e) ∧ (6 ≤ level e → 5 ≤ pyLevel fl e) ∧
    (7 ≤ level e → (∀ u, unaryOf e = some u → u = .not_ ∧ fl.opOnInt = true) → 7 ≤ pyLevel fl e) ∧
    (¬IsCmp e → 1 ≤ pyLevel fl e) ∧ (¬IsCmp e → 2 ≤ level e → 2 ≤ pyLevel fl e) ∧ (¬IsCmp e → 3 ≤ level e → 3 ≤ pyLevel fl e) := by
  cases e with
  | bin op l r => cases op <;> cases h : fl.opOnInt <;> simp_all [level, opLevel, pyLevel, IsCmp, unaryOf]
  | unary op e => cases op <;> cases h : fl.opOnInt <;> simp_all [level, pyLevel, IsCmp, unaryOf]
  | _ => simp [level, pyLevel, unaryOf]

theorem Good.le {k j : ℕ} {ts : List Tok} {e : Py.Expr} (h : Good k ts e) (hk : k ≤ 7) (hj : j ≤ k) : Good j ts e := h.mono hk hj

theorem good_binary (fl : Flags) (op : BinOp) {l r : Compiler.Expr} {tl tr : List Tok} {a b : Py.Expr} (hl : Good (pyLevel fl l) tl a)
    (hr : Good (pyLevel fl r) tr b) (h1 : opLevel op ≤ level l) (h2 : opLevel op < level r) (ho : OperandsOK fl.opOnInt op l r) :
    Good (pyLevel fl (.bin op l r)) (binToks fl op tl tr) (meanBin fl.opOnInt op a b) := by
  have gl := pyLevel_ge fl l
  have gr := pyLevel_ge fl r
  have ul := pyLevel_le fl l
  have ur := pyLevel_le fl r
  have l0 := hl.le ul (Nat.zero_le _)
  have r0 := hr.le ur (Nat.zero_le _)
  have cmpCase : ∀ {o : List Char}, o ∈ binOps 0 → opLevel op = 3 → Good 0 (tl ++ .op o :: tr) (.cmp false o a b) := fun ho3 h3 =>
    good_cmp ho3 (hl.le ul (gl.2.2.2.2.1 (ho.chain h3))) (hr.le ur (by have := gr.1 (by omega); omega))
  cases op with
  | add => exact good_bin (k := 3) (o := "+".toList) (by decide) (by decide) (by decide) (hl.le ul (gl.1 h1)) (hr.le ur (gr.2.1 h2))
  | sub => exact good_bin (k := 3) (o := "-".toList) (by decide) (by decide) (by decide) (hl.le ul (gl.1 h1)) (hr.le ur (gr.2.1 h2))
  | mul => exact good_bin (k := 4) (o := "*".toList) (by decide) (by decide) (by decide) (hl.le ul (gl.2.1 h1)) (hr.le ur (gr.2.2.1 h2))
  | div => exact good_bin (k := 4) (o := "//".toList) (by decide) (by decide) (by decide) (hl.le ul (gl.2.1 h1)) (hr.le ur (gr.2.2.1 h2))
  | pow =>
    have hb := ho.base rfl
    have h7 : 7 ≤ level l := by
      have : level l ≠ 6 := hb.1
      have : 6 ≤ level l := h1
      omega
    exact good_pow (hl.le ul (gl.2.2.2.1 h7 hb.2)) (hr.le ur (gr.2.2.1 (le_of_lt h2)))
  | lt => exact cmpCase (o := "<".toList) (by decide) rfl
  | gt => exact cmpCase (o := ">".toList) (by decide) rfl
  | eq => exact cmpCase (o := "==".toList) (by decide) rfl
  | ne => exact cmpCase (o := "!=".toList) (by decide) rfl
  | le => exact cmpCase (o := "<=".toList) (by decide) rfl
  | ge => exact cmpCase (o := ">=".toList) (by decide) rfl
  | at_ =>
    have h1 : 7 ≤ level l := h1
    have h2 : 7 < level r := h2
    cases hc : fl.opOnInt with
    | true =>
      simp only [binToks, BinOp.lib, hc, if_true, meanBin]
      exact good_call _ (.cons l0 (.cons r0 .nil))
    | false =>
      simp only [binToks, BinOp.lib, hc, if_false, if_true, meanBin, Bool.false_eq_true]
      exact good_paren (k := 4) (by omega) (good_bin (o := "@".toList) (by decide) (by decide) (by decide) (hl.le ul (gl.2.1 (by omega)))
        (hr.le ur (gr.2.2.1 (by omega))))
  | and_ =>
    have h1 : 2 ≤ level l := h1
    have h2 : 3 ≤ level r := h2
    cases hc : fl.opOnInt with
    | true =>
      simp only [binToks, BinOp.lib, hc, if_true, meanBin, pyLevel]
      exact good_call _ (.cons l0 (.cons r0 .nil))
    | false =>
      simp only [binToks, BinOp.lib, hc, if_false, meanBin, Bool.false_eq_true, pyLevel, reduceCtorEq]
      have h3 := ho.logic hc (Or.inl rfl)
      exact good_bin (o := "&".toList) (by decide) (by decide) (by decide) (hl.le ul (gl.2.2.2.2.2.1 h3.1 h1)) (hr.le ur (gr.2.2.2.2.2.2 h3.2 h2))
  | or_ =>
    have h2 : 2 ≤ level r := h2
    cases hc : fl.opOnInt with
    | true =>
      simp only [binToks, BinOp.lib, hc, if_true, meanBin, pyLevel]
      exact good_call _ (.cons l0 (.cons r0 .nil))
    | false =>
      simp only [binToks, BinOp.lib, hc, if_false, meanBin, Bool.false_eq_true, pyLevel, reduceCtorEq]
      have h3 := ho.logic hc (Or.inr rfl)
      exact good_bin (o := "|".toList) (by decide) (by decide) (by decide) (hl.le ul (gl.2.2.2.2.1 h3.1)) (hr.le ur (gr.2.2.2.2.2.1 h3.2 h2))

theorem good_unary (fl : Flags) (op : UnOp) {e : Compiler.Expr} {ts : List Tok} {a : Py.Expr} (h : Good (pyLevel fl e) ts a)
    (h9 : level e = 9) : Good (pyLevel fl (.unary op e)) (unaryToks fl op ts) (meanUnary fl.opOnInt op a) := by
  have u := pyLevel_le fl e
  have h5 := h.le u ((pyLevel_ge fl e).2.2.1 (by omega))
  cases op with
  | plus => exact good_sign (by decide) h5
  | minus => exact good_sign (by decide) h5
  | not_ =>
    cases hc : fl.opOnInt with
    | true =>
      simp only [unaryToks, hc, if_true, meanUnary, pyLevel]
      exact good_call _ (.cons (h.le u (Nat.zero_le _)) .nil)
    | false =>
      simp only [unaryToks, hc, if_false, meanUnary, Bool.false_eq_true, pyLevel]
      exact good_sign (by decide) h5

theorem good_var (fl : Flags) (x : List Char) : Good 7 (varToks fl x) (mean fl.style (.var x)) := by
  show Good 7 _ (if fl.nonLocal then _ else _)
  unfold varToks
  cases fl.nonLocal with
  | true => exact good_vars x
  | false => exact good_name x

theorem good_hash (fl : Flags) {ts : List Tok} {a : Py.Expr} (h : Good 0 ts a) :
    Good 7 (callToks (if fl.opOnInt then "myLen".toList else "len".toList) [ts]) (callOf (if fl.opOnInt then "myLen" else "len") [a]) := by
  cases fl.opOnInt with
  | true => exact good_call _ (.cons h .nil)
  | false => exact good_call _ (.cons h .nil)

theorem good_seq {tss : List (List Tok)} {es : List Py.Expr} (h : List.Forall₂ (Good 0) tss es) :
    Good 7 (.name "get_seq".toList :: .op ['('] :: .op ['['] :: (commas tss ++ [.op [']'], .op [')']])) (callOf "get_seq" [.list (toArgs es)]) := by
  have := good_call "get_seq".toList (.cons ((good_list h).le (le_refl 7) (Nat.zero_le 7)) .nil)
  have e : callToks "get_seq".toList [.op ['['] :: (commas tss ++ [.op [']']])] =
      .name "get_seq".toList :: .op ['('] :: .op ['['] :: (commas tss ++ [.op [']'], .op [')']]) := by
    simp [callToks, commas]
  rw [← e]
  exact this

mutual

theorem good_expr (fl : Flags) (e : Compiler.Expr) (h : Grammatical e)
    (ho : ∀ op l r, SubExpr (.bin op l r) e → OperandsOK fl.opOnInt op l r) : Good (pyLevel fl e) (toks fl e) (mean fl.style e) := by
  match e with
  | .num n => exact good_int n
  | .dec a b => exact good_float a b
  | .var x => exact good_var fl x
  | .str ps => exact good_fstr _
  | .group e => exact good_paren (pyLevel_le fl e) (good_expr fl e h fun op l r hs => ho op l r (.group hs))
  | .bin op l r =>
    exact good_binary fl op (good_expr fl l h.2.2.1 fun op l r hs => ho op l r (.binL hs))
      (good_expr fl r h.2.2.2 fun op l r hs => ho op l r (.binR hs)) h.1 h.2.1 (ho op l r (.refl _))
  | .ndm l r =>
    exact good_call _ (.cons ((good_expr fl l h.2.2.1 fun op l r hs => ho op l r (.ndmL hs)).le (pyLevel_le fl l) (Nat.zero_le _))
      (.cons ((good_expr fl r h.2.2.2 fun op l r hs => ho op l r (.ndmR hs)).le (pyLevel_le fl r) (Nat.zero_le _)) .nil))
  | .dm r =>
    exact good_call _ (.cons ((good_expr fl r h.2 fun op l r hs => ho op l r (.dm hs)).le (pyLevel_le fl r) (Nat.zero_le _)) .nil)
  | .unary op e => exact good_unary fl op (good_expr fl e h.2 fun op l r hs => ho op l r (.unary hs)) h.1
  | .hash e =>
    exact good_hash fl ((good_expr fl e h.2 fun op l r hs => ho op l r (.hash hs)).le (pyLevel_le fl e) (Nat.zero_le _))
  | .seq es => exact good_seq (good_elems fl es h fun op l r hs => ho op l r (.seq hs))
  | .call cs =>
    have h1 := good_args fl cs h fun op l r hs => ho op l r (.call hs)
    have h2 : List.Forall₂ (Good 0) (if fl.nonLocal then [[Tok.name "vars".toList]] else [])
        (if fl.nonLocal then [Py.Expr.name "vars".toList] else []) := by
      split
      · exact .cons ((good_name _).le (le_refl 7) (Nat.zero_le 7)) .nil
      · exact .nil
    have h3 := good_call (mangle fl cs.names) (List.rel_append h1 h2)
    rw [← pyName_eq] at h3
    have e1 : toks fl (.call cs) = callToks (pyName fl.libConflict (callSig cs))
        (argToks fl cs ++ if fl.nonLocal then [[.name "vars".toList]] else []) := by rw [pyName_eq]; rfl
    rw [e1]
    exact h3

theorem good_elems (fl : Flags) (es : Elems) (h : GrammaticalE es)
    (ho : ∀ op l r, SubElem (.bin op l r) es → OperandsOK fl.opOnInt op l r) : List.Forall₂ (Good 0) (elemToks fl es) (meanE fl.style es) := by
  match es with
  | .nil => exact .nil
  | .expr e es =>
    exact .cons ((good_expr fl e h.1 fun op l r hs => ho op l r (.expr hs)).le (pyLevel_le fl e) (Nat.zero_le _))
      (good_elems fl es h.2 fun op l r hs => ho op l r (.afterExpr hs))
  | .range l r es =>
    exact .cons ((good_call _ (.cons ((good_expr fl l h.1 fun op l r hs => ho op l r (.rangeL hs)).le (pyLevel_le fl l) (Nat.zero_le _))
      (.cons ((good_expr fl r h.2.1 fun op l r hs => ho op l r (.rangeR hs)).le (pyLevel_le fl r) (Nat.zero_le _)) .nil))).le (le_refl 7)
        (Nat.zero_le _)) (good_elems fl es h.2.2 fun op l r hs => ho op l r (.afterRange hs))

theorem good_args (fl : Flags) (cs : CallParts) (h : GrammaticalC cs)
    (ho : ∀ op l r, SubArg (.bin op l r) cs → OperandsOK fl.opOnInt op l r) : List.Forall₂ (Good 0) (argToks fl cs) (meanC fl.style cs) := by
  match cs with
  | .nil => exact .nil
  | .word w cs => exact good_args fl cs h fun op l r hs => ho op l r (.afterWord hs)
  | .arg e cs =>
    exact .cons ((good_expr fl e h.1 fun op l r hs => ho op l r (.arg hs)).le (pyLevel_le fl e) (Nat.zero_le _))
      (good_args fl cs h.2 fun op l r hs => ho op l r (.afterArg hs))

end

end PythonDice
