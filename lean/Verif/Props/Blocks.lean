import Verif.Proofs.Blocks
import Verif.Props.Names

/-!
# C40: block structure is preserved by indentation and blank-line removal
-/

namespace PythonDice

open Spec Compiler
open Spec.Py hiding Expr Args

/-! ## The blocks of a program -/

/-- A block in Python is never empty. -/
def suite : Forest → Forest
  | .nil => .cons (.node "pass".toList .nil) .nil
  | f => f

/-- A line without a block. -/
def leaf (l : List Char) (f : Forest) : Forest := .cons (.node l .nil) f

/-- The line of a definition. -/
def defHeader (fl : Flags) (sig : List DefPart) : List Char :=
  match fixDups (params sig) with
  | .ok r => defLine fl sig r.1
  | .error _ => []

/-- The line that copies the variables and parameters. -/
def copyLine (sig : List DefPart) : List Char :=
  match fixDups (params sig) with
  | .ok r => "vars = vars.copy(); ".toList ++ join "; ".toList (r.2.map fun n => "vars[\"".toList ++ n ++ "\"] = ".toList ++ n)
  | .error _ => []

mutual

/-- The lines that stand for a statement, with their blocks, before other lines. -/
def outline (fl : Flags) : Stmt → Forest → Forest
  | .output e, f => leaf ("output(".toList ++ e.emit fl ++ ")".toList) f
  | .outputNamed e n, f => leaf ("output(".toList ++ e.emit fl ++ ", named=".toList ++ emitStr fl n ++ ")".toList) f
  | .set n v, f => leaf ("settings_set(".toList ++ emitStr fl n ++ ", ".toList ++ v.emit fl ++ ")".toList) f
  | .function sig body, f =>
    leaf "@anydice_casting()".toList (.cons (.node (defHeader fl sig)
      (if fl.nonLocal then leaf (copyLine sig) (suite (blockOutline fl body)) else suite (blockOutline fl body))) f)
  | .result e, f => leaf ("return ".toList ++ e.emit fl) f
  | .cond c body rest, f =>
    .cons (.node ("if ".toList ++ c.emit fl ++ ":".toList) (suite (blockOutline fl body))) (elseOutline fl rest f)
  | .loop x o body, f =>
    .cons (.node ("for ".toList ++ x ++ " in ".toList ++ o.emit fl ++ ":".toList)
      (if fl.nonLocal then leaf ("vars['".toList ++ x ++ "'] = ".toList ++ x) (suite (blockOutline fl body))
        else suite (blockOutline fl body))) f
  | .assign x e, f => leaf (if fl.nonLocal then "vars['".toList ++ x ++ "'] = ".toList ++ e.emit fl else x ++ " = ".toList ++ e.emit fl) f

/-- The lines of a block. -/
def blockOutline (fl : Flags) : Block → Forest
  | .nil => .nil
  | .cons s b => outline fl s (blockOutline fl b)

/-- The lines of the alternatives of a conditional, before other lines. -/
def elseOutline (fl : Flags) : Else → Forest → Forest
  | .done, f => f
  | .else_ body, f => .cons (.node "else:".toList (suite (blockOutline fl body))) f
  | .elif c body rest, f =>
    .cons (.node ("elif ".toList ++ c.emit fl ++ ":".toList) (suite (blockOutline fl body))) (elseOutline fl rest f)

end

/-! ## Reading what has been laid out -/

mutual

/-- Lines with depths. -/
def entriesT (k : ℕ) : Tree → List (ℕ × List Char)
  | .node l kids => (k, l) :: entries (k + 2) kids

/-- Lines with depths. -/
def entries (k : ℕ) : Forest → List (ℕ × List Char)
  | .nil => []
  | .cons t f => entriesT k t ++ entries k f

end

mutual

/-- The lines that open blocks are those with lines under them. -/
def FitsT : Tree → Prop
  | .node l kids => (Opens l ↔ kids ≠ .nil) ∧ Fits kids

/-- The lines that open blocks are those with lines under them. -/
def Fits : Forest → Prop
  | .nil => True
  | .cons t f => FitsT t ∧ Fits f

end

theorem entries_head {k : ℕ} {f : Forest} (h : f ≠ .nil) (rest : List (ℕ × List Char)) : ∃ l, (entries k f ++ rest).head? = some (k, l) := by
  cases f with
  | nil => exact absurd rfl h
  | cons t f =>
    cases t with
    | node l kids => exact ⟨l, rfl⟩

mutual

theorem read_tree (t : Tree) (ht : FitsT t) (k : ℕ) (f : Forest) (mid rest : List (ℕ × List Char)) (n : ℕ)
    (hmid : ∀ m, mid.length < m → readForest m k mid = some (f, rest)) (hn : (entriesT k t ++ mid).length < n)
    (hr : ∀ p, mid.head? = some p → p.1 ≤ k) : readForest n k (entriesT k t ++ mid) = some (.cons t f, rest) := by
  match t with
  | .node l kids =>
    rw [entriesT] at hn ⊢
    cases n with
    | zero => exact absurd hn (Nat.not_lt_zero _)
    | succ n =>
      have hn' : (entries (k + 2) kids ++ mid).length < n := by simpa using hn
      rw [List.cons_append, readForest, if_neg (lt_irrefl k), if_neg (lt_irrefl k)]
      rw [FitsT] at ht
      by_cases ho : Opens l
      · rw [if_pos ho]
        have hk := ht.1.1 ho
        obtain ⟨l', hl'⟩ := entries_head (k := k + 2) hk mid
        rw [hl']
        have h1 := read_forest kids ht.2 (k + 2) mid n hn' fun p hp => by have := hr p hp; omega
        have h2 := hmid n (by rw [List.length_append] at hn'; omega)
        simp only [show k < k + 2 by omega, if_true, h1, Option.bind_some, h2, Option.map_some]
      · have hk : kids = .nil := by
          by_contra h
          exact ho (ht.1.2 h)
        subst hk
        rw [if_neg ho]
        rw [entries, List.nil_append] at hn' ⊢
        rw [hmid n hn', Option.map_some]

theorem read_forest (f : Forest) (hf : Fits f) (k : ℕ) (rest : List (ℕ × List Char)) (n : ℕ) (hn : (entries k f ++ rest).length < n)
    (hr : ∀ p, rest.head? = some p → p.1 < k) : readForest n k (entries k f ++ rest) = some (f, rest) := by
  match f with
  | .nil =>
    cases n with
    | zero => exact absurd hn (Nat.not_lt_zero _)
    | succ n =>
      rw [entries, List.nil_append]
      cases rest with
      | nil => rfl
      | cons p rest =>
        obtain ⟨d, l⟩ := p
        rw [readForest, if_pos (hr _ rfl)]
  | .cons t f =>
    rw [entries, List.append_assoc] at hn ⊢
    refine read_tree t hf.1 k f _ rest n (fun m hm => read_forest f hf.2 k rest m hm hr) hn ?_
    intro p hp
    by_cases h : f = .nil
    · subst h
      exact le_of_lt (hr p hp)
    · obtain ⟨l, hl⟩ := entries_head (k := k) h rest
      rw [hl] at hp
      cases hp
      exact le_rfl

end

mutual

theorem entriesT_shift (k : ℕ) (t : Tree) : entriesT (k + 2) t = (entriesT k t).map fun p => (p.1 + 2, p.2) := by
  match t with
  | .node l kids => rw [entriesT, entriesT, entries_shift (k + 2) kids]; rfl

theorem entries_shift (k : ℕ) (f : Forest) : entries (k + 2) f = (entries k f).map fun p => (p.1 + 2, p.2) := by
  match f with
  | .nil => rfl
  | .cons t f => rw [entries, entries, entriesT_shift k t, entries_shift k f, List.map_append]

end

/-! ## Texts without line breaks -/

/-- A text on one line. -/
def Flat (t : List Char) : Prop := ∀ c ∈ t, c ≠ '\n' ∧ c ≠ '\r'

instance (t : List Char) : Decidable (Flat t) := by unfold Flat; infer_instance

theorem flat_append {a b : List Char} (ha : Flat a) (hb : Flat b) : Flat (a ++ b) := fun c hc => (List.mem_append.1 hc).elim (ha c) (hb c)

theorem flat_join {sep : List Char} {ls : List (List Char)} (hs : Flat sep) (hl : ∀ l ∈ ls, Flat l) : Flat (join sep ls) :=
  fun c hc => (mem_join hc).elim (hs c) fun ⟨l, h, h'⟩ => hl l h c h'

theorem flat_callText {f : List Char} {args : List (List Char)} (hf : Flat f) (ha : ∀ a ∈ args, Flat a) : Flat (callText f args) :=
  flat_append (flat_append (flat_append hf (by decide)) (flat_join (by decide) ha)) (by decide)

theorem flat_var {x : List Char} (h : VarName x) : Flat x := by
  intro c hc
  have := h.2 c hc
  constructor <;> rintro rfl <;> exact absurd this (by decide)

theorem flat_word {x : List Char} (h : Word x) : Flat x := by
  intro c hc
  have := h.2 c hc
  constructor <;> rintro rfl <;> exact absurd this (by decide)

variable {dig : Char → Bool}

theorem flat_digits (hd : Lexer.AsciiDigits dig) {x : List Char} (h : Digits dig x) : Flat x := by
  intro c hc
  have h1 := h.2 c hc
  constructor <;> rintro rfl <;> rw [hd.not _ (by decide) (by decide)] at h1 <;> cases h1

/-- Characters of literals that do not end a line. -/
def LineChar (c : Char) : Prop := c ≠ '\n' ∧ c ≠ '\r'

theorem flat_emitVar (fl : Flags) {x : List Char} (h : VarName x) : Flat (emitVar fl x) := by
  unfold emitVar
  split
  · exact flat_append (flat_append (by decide) (flat_var h)) (by decide)
  · exact flat_var h

theorem flat_emitStr (fl : Flags) {ps : List StrPart} (h : PartsOK LineChar ps) : Flat (emitStr fl ps) := by
  unfold emitStr
  refine flat_append (flat_append (by decide) ?_) (by decide)
  intro c hc
  obtain ⟨q, hq, hc⟩ := List.mem_flatMap.1 hc
  have hq' := h q hq
  cases q with
  | text s =>
    obtain ⟨d, hd, hc⟩ := List.mem_flatMap.1 hc
    have hd' := hq' d hd
    split at hc
    · simp at hc; subst hc; decide
    · split at hc
      · simp at hc; subst hc; decide
      · simp at hc; subst hc; exact hd'
  | var x =>
    have hx : VarName x := hq'
    rw [StrPart.emit] at hc
    split at hc
    · exact flat_append (flat_append (by decide) (flat_var hx)) (by decide) c hc
    · exact flat_append (flat_append (by decide) (flat_var hx)) (by decide) c hc

theorem flat_bin (fl : Flags) (op : BinOp) {l r : List Char} (hl : Flat l) (hr : Flat r) : Flat (emitBin fl op l r) := by
  have hpy : Flat op.py := by cases op <;> decide
  have hsp : Flat " ".toList := by decide
  unfold emitBin
  split
  · next f hf =>
    have hf' : Flat f := by
      cases op <;> simp only [BinOp.lib] at hf <;> cases hf <;> decide
    split
    · exact flat_callText hf' (by simp [hl, hr])
    · split
      · exact flat_append (flat_append (flat_append (flat_append (flat_append (flat_append (by decide) hl) hsp) hpy) hsp) hr) (by decide)
      · exact flat_append (flat_append (flat_append (flat_append hl hsp) hpy) hsp) hr
  · exact flat_append (flat_append (flat_append (flat_append hl hsp) hpy) hsp) hr

theorem flat_unary (fl : Flags) (op : UnOp) {e : List Char} (h : Flat e) : Flat (emitUnary fl op e) := by
  unfold emitUnary
  split
  · split
    · exact flat_callText (by decide) (by simp [h])
    · exact flat_append (by decide) h
  · exact flat_append (by decide) h
  · exact flat_append (by decide) h

theorem flat_mangle (fl : Flags) {l : List (List Char)} (h : ∀ x ∈ l, Flat x) : Flat (mangle fl l) := by
  unfold mangle
  refine flat_join (by decide) ?_
  split
  · intro x hx
    rcases List.mem_cons.1 hx with rfl | hx
    · decide
    · exact h x hx
  · exact h

theorem flat_withVars (fl : Flags) {l : List (List Char)} (h : ∀ x ∈ l, Flat x) : ∀ x ∈ withVars fl l, Flat x := by
  unfold withVars
  split
  · intro x hx
    rcases List.mem_append.1 hx with hx | hx
    · exact h x hx
    · simp at hx; subst hx; decide
  · exact h

mutual

theorem flat_expr (hd : Lexer.AsciiDigits dig) (fl : Flags) (e : Expr) (h : ExprOK dig LineChar e) : Flat (e.emit fl) := by
  match e with
  | .num n => exact flat_digits hd h
  | .dec a b => exact flat_append (flat_append (flat_digits hd h.1) (by decide)) (flat_digits hd h.2)
  | .var x => exact flat_emitVar fl h
  | .str ps => exact flat_emitStr fl h
  | .group e => exact flat_append (flat_append (by decide) (flat_expr hd fl e h)) (by decide)
  | .bin op l r => exact flat_bin fl op (flat_expr hd fl l h.1) (flat_expr hd fl r h.2)
  | .ndm l r => exact flat_callText (by decide) (by simp [flat_expr hd fl l h.1, flat_expr hd fl r h.2])
  | .dm r => exact flat_callText (by decide) (by simp [flat_expr hd fl r h])
  | .unary op e => exact flat_unary fl op (flat_expr hd fl e h)
  | .hash e => exact flat_callText (by split <;> decide) (by simp [flat_expr hd fl e h])
  | .seq es => exact flat_append (flat_append (by decide) (flat_join (by decide) (flat_elems hd fl es h))) (by decide)
  | .call cs =>
    have := flat_call hd fl cs h.2
    exact flat_callText (flat_mangle fl this.2) (flat_withVars fl this.1)

theorem flat_elems (hd : Lexer.AsciiDigits dig) (fl : Flags) (es : Elems) (h : ElemsOK dig LineChar es) : ∀ t ∈ es.emit fl, Flat t := by
  match es with
  | .nil => intro t ht; cases ht
  | .expr e es =>
    intro t ht
    rcases List.mem_cons.1 ht with rfl | ht
    · exact flat_expr hd fl e h.1
    · exact flat_elems hd fl es h.2 t ht
  | .range l r es =>
    intro t ht
    rcases List.mem_cons.1 ht with rfl | ht
    · exact flat_callText (by decide) (by simp [flat_expr hd fl l h.1, flat_expr hd fl r h.2.1])
    · exact flat_elems hd fl es h.2.2 t ht

theorem flat_call (hd : Lexer.AsciiDigits dig) (fl : Flags) (cs : CallParts) (h : CallOK dig LineChar cs) :
    (∀ t ∈ cs.emit fl, Flat t) ∧ ∀ t ∈ cs.names, Flat t := by
  match cs with
  | .nil => exact ⟨fun t ht => (by cases ht), fun t ht => (by cases ht)⟩
  | .word w cs =>
    have := flat_call hd fl cs h.2
    refine ⟨this.1, fun t ht => ?_⟩
    rcases List.mem_cons.1 ht with rfl | ht
    · exact flat_word h.1
    · exact this.2 t ht
  | .arg e cs =>
    have := flat_call hd fl cs h.2
    refine ⟨fun t ht => ?_, fun t ht => ?_⟩
    · rcases List.mem_cons.1 ht with rfl | ht
      · exact flat_expr hd fl e h.1
      · exact this.1 t ht
    · rcases List.mem_cons.1 ht with rfl | ht
      · decide
      · exact this.2 t ht

end

/-! ## Lines that do not open a block -/

theorem opens_append {a b : List Char} (h : ¬ Opens b) (hb : b ≠ []) : ¬ Opens (a ++ b) := by
  unfold Opens at h ⊢
  rw [List.getLast?_append_of_ne_nil _ hb]
  exact h

theorem not_opens_var {x : List Char} (h : VarName x) : ¬ Opens x := by
  intro h'
  have := h.2 ':' (List.mem_of_getLast? h')
  exact absurd this (by decide)

theorem not_opens_digits (hd : Lexer.AsciiDigits dig) {x : List Char} (h : Digits dig x) : ¬ Opens x := by
  intro h'
  have := h.2 ':' (List.mem_of_getLast? h')
  rw [hd.not _ (by decide) (by decide)] at this
  cases this

/-- Not opening a block, and not empty. -/
def Plain (t : List Char) : Prop := ¬ Opens t ∧ t ≠ []

theorem Plain.prepend {b : List Char} (h : Plain b) (a : List Char) : Plain (a ++ b) := ⟨opens_append h.1 h.2, by simp [h.2]⟩

theorem plain_paren (a : List Char) : Plain (a ++ ")".toList) := Plain.prepend ⟨by decide, by decide⟩ a
theorem plain_quote (a : List Char) : Plain (a ++ "\"".toList) := Plain.prepend ⟨by decide, by decide⟩ a
theorem plain_subscript (a : List Char) : Plain (a ++ "']".toList) := Plain.prepend ⟨by decide, by decide⟩ a
theorem plain_seq (a : List Char) : Plain (a ++ "])".toList) := Plain.prepend ⟨by decide, by decide⟩ a
theorem plain_var {x : List Char} (h : VarName x) : Plain x := ⟨not_opens_var h, h.1⟩
theorem plain_digits (hd : Lexer.AsciiDigits dig) {x : List Char} (h : Digits dig x) : Plain x := ⟨not_opens_digits hd h, h.1⟩
theorem plain_callText (f : List Char) (args : List (List Char)) : Plain (callText f args) := plain_paren _

theorem plain_emitVar (fl : Flags) {x : List Char} (h : VarName x) : Plain (emitVar fl x) := by
  unfold emitVar
  split
  · exact plain_subscript _
  · exact plain_var h

theorem plain_bin (fl : Flags) (op : BinOp) (l : List Char) {r : List Char} (h : Plain r) : Plain (emitBin fl op l r) := by
  unfold emitBin
  split
  · split
    · exact plain_callText _ _
    · split
      · exact plain_paren _
      · exact h.prepend _
  · exact h.prepend _

theorem plain_unary (fl : Flags) (op : UnOp) {e : List Char} (h : Plain e) : Plain (emitUnary fl op e) := by
  unfold emitUnary
  split
  · split
    · exact plain_callText _ _
    · exact h.prepend _
  · exact h.prepend _
  · exact h.prepend _

theorem plain_expr (hd : Lexer.AsciiDigits dig) (fl : Flags) (lit : Char → Prop) : ∀ e : Expr, ExprOK dig lit e → Plain (e.emit fl)
  | .num _, h => plain_digits hd h
  | .dec _ _, h => (plain_digits hd h.2).prepend _
  | .var _, h => plain_emitVar fl h
  | .str _, _ => plain_quote _
  | .group _, _ => plain_paren _
  | .bin op _ r, h => plain_bin fl op _ (plain_expr hd fl lit r h.2)
  | .ndm _ _, _ => plain_callText _ _
  | .dm _, _ => plain_callText _ _
  | .unary op e, h => plain_unary fl op (plain_expr hd fl lit e h)
  | .hash _, _ => plain_callText _ _
  | .seq _, _ => plain_seq _
  | .call _, _ => plain_callText _ _

/-! ## Parameters -/

/-- Names of parameters: as written, or made up. -/
def ParamName (n : List Char) : Prop := VarName n ∨ ∃ i, n = dummy i

theorem flat_repr (i : ℕ) : Flat (Nat.repr i).toList := by
  intro c hc
  rw [Nat.toList_repr] at hc
  have := Nat.isDigit_of_mem_toDigits (by decide) (by decide) hc
  constructor <;> rintro rfl <;> exact absurd this (by decide)

theorem plain_repr (i : ℕ) : Plain (Nat.repr i).toList := by
  rw [Nat.toList_repr]
  refine ⟨fun h => ?_, Nat.toDigits_ne_nil⟩
  have := Nat.isDigit_of_mem_toDigits (by decide) (by decide) (List.mem_of_getLast? h)
  exact absurd this (by decide)

theorem flat_param {n : List Char} (h : ParamName n) : Flat n := by
  rcases h with h | ⟨i, rfl⟩
  · exact flat_var h
  · exact flat_append (by decide) (flat_repr i)

theorem plain_param {n : List Char} (h : ParamName n) : Plain n := by
  rcases h with h | ⟨i, rfl⟩
  · exact plain_var h
  · exact (plain_repr i).prepend _

/-- What the renaming of parameters keeps. -/
def RenameOK (st : List Param × List (List Char)) : Prop :=
  (∀ p ∈ st.1, ParamName p.name ∧ ∀ t, p.type = some t → Flat t) ∧ ∀ n ∈ st.2, ParamName n

theorem fixAt_ok {i : ℕ} {st st' : List Param × List (List Char)} (h : fixAt i st = .ok st') (hst : RenameOK st) : RenameOK st' := by
  unfold fixAt at h
  split at h
  · cases h
  · split at h
    · split at h
      · next n t ht =>
        cases h
        refine ⟨fun p hp => ?_, fun m hm => ?_⟩
        · rcases List.mem_or_eq_of_mem_set hp with hp | rfl
          · exact hst.1 p hp
          · exact ⟨Or.inr ⟨i, rfl⟩, fun t' ht' => by cases ht'; exact (hst.1 _ (List.mem_of_getElem? ht)).2 t rfl⟩
        · rcases List.mem_or_eq_of_mem_set hm with hm | rfl
          · exact hst.2 m hm
          · exact Or.inr ⟨i, rfl⟩
      · cases h
    · cases h
      exact hst

theorem fixLoop_ok {i : ℕ} {st st' : List Param × List (List Char)} (h : fixLoop i st = .ok st') (hst : RenameOK st) : RenameOK st' := by
  induction i generalizing st with
  | zero => cases h; exact hst
  | succ i ih =>
    rw [fixLoop] at h
    cases hf : fixAt i st with
    | error e => rw [hf] at h; cases h
    | ok st1 => rw [hf] at h; exact ih h (fixAt_ok hf hst)

theorem params_ok {sig : List DefPart} (h : ∀ d ∈ sig, DefOK d) {r : List Param × List (List Char)} (hr : fixDups (params sig) = .ok r) :
    RenameOK r := by
  have h0 : ∀ p ∈ params sig, ParamName p.name ∧ ∀ t, p.type = some t → Flat t := by
    intro p hp
    obtain ⟨d, hd, hp⟩ := List.mem_filterMap.1 hp
    have hd' := h d hd
    cases d with
    | word w => cases hp
    | param x => cases hp; exact ⟨Or.inl hd', fun t ht => by cases ht⟩
    | typed x t =>
      cases hp
      refine ⟨Or.inl hd'.1, fun t' ht => ?_⟩
      cases ht
      unfold dtype
      split
      · decide
      · split
        · decide
        · split
          · decide
          · exact flat_word hd'.2
  have h1 : RenameOK (params sig, (params sig).map Param.name) := by
    refine ⟨h0, fun n hn => ?_⟩
    obtain ⟨p, hp, rfl⟩ := List.mem_map.1 hn
    exact (h0 p hp).1
  unfold fixDups at hr
  split at hr
  · exact fixLoop_ok hr h1
  · cases hr
    exact h1

theorem flat_defLine (fl : Flags) {sig : List DefPart} (h : ∀ d ∈ sig, DefOK d) {ps : List Param}
    (hp : ∀ p ∈ ps, ParamName p.name ∧ ∀ t, p.type = some t → Flat t) : Flat (defLine fl sig ps) := by
  refine flat_append (flat_append (flat_append (flat_append (by decide) (flat_mangle fl ?_)) (by decide)) (flat_join (by decide)
    (flat_withVars fl ?_))) (by decide)
  · intro x hx
    obtain ⟨d, hd, rfl⟩ := List.mem_map.1 hx
    have := h d hd
    cases d with
    | word w => exact flat_word this
    | param x => exact (by decide : Flat "X".toList)
    | typed x t => exact (by decide : Flat "X".toList)
  · intro x hx
    obtain ⟨p, hp', rfl⟩ := List.mem_map.1 hx
    have := hp p hp'
    unfold Param.text
    split
    · exact flat_param this.1
    · next t ht => exact flat_append (flat_append (flat_param this.1) (by decide)) (this.2 t ht)

/-- The text of a copying line. -/
def copyText (names : List (List Char)) : List Char :=
  "vars = vars.copy(); ".toList ++ join "; ".toList (names.map fun n => "vars[\"".toList ++ n ++ "\"] = ".toList ++ n)

theorem flat_copyText {names : List (List Char)} (h : ∀ n ∈ names, ParamName n) : Flat (copyText names) := by
  refine flat_append (by decide) (flat_join (by decide) ?_)
  intro x hx
  obtain ⟨n, hn, rfl⟩ := List.mem_map.1 hx
  have := flat_param (h n hn)
  exact flat_append (flat_append (flat_append (by decide) this) (by decide)) this

theorem plain_join {sep : List Char} {ls : List (List Char)} (hne : ls ≠ []) (h : ∀ l ∈ ls, Plain l) : Plain (join sep ls) := by
  induction ls with
  | nil => exact absurd rfl hne
  | cons p ps ih =>
    by_cases hp : ps = []
    · subst hp
      exact h p List.mem_cons_self
    · rw [join_cons _ _ hp]
      exact (ih hp fun l hl => h l (List.mem_cons_of_mem _ hl)).prepend _

theorem plain_copyText {names : List (List Char)} (h : ∀ n ∈ names, ParamName n) : Plain (copyText names) := by
  unfold copyText
  cases names with
  | nil => exact ⟨by decide, by decide⟩
  | cons n ns =>
    refine (plain_join (by simp) ?_).prepend _
    intro x hx
    obtain ⟨n, hn, rfl⟩ := List.mem_map.1 hx
    exact (plain_param (h n hn)).prepend _

/-! ## Texts and their lines -/

/-- A line on which Python and the removal of blank lines agree. -/
def LineOK (l : List Char) : Prop := blank l = true → readLine l = none

/-- The first character is neither a space nor other white space. -/
def Firm (l : List Char) : Prop := ∃ c cs, l = c :: cs ∧ blank [c] = false

theorem Firm.solid {l : List Char} (h : Firm l) : Solid l := by
  obtain ⟨c, cs, rfl, hc⟩ := h
  refine ⟨c, cs, rfl, ?_⟩
  rintro rfl
  exact absurd hc (by decide)

theorem Firm.lineOK {l : List Char} (h : Firm l) : LineOK l := by
  obtain ⟨c, cs, rfl, hc⟩ := h
  intro hb
  unfold blank at hb hc
  rw [List.all_cons, Bool.and_eq_true] at hb
  simp only [List.all_cons, List.all_nil, Bool.and_true] at hc
  rw [hb.1] at hc
  cases hc

theorem firm_append {a : List Char} (h : Firm a) (b : List Char) : Firm (a ++ b) := by
  obtain ⟨c, cs, rfl, hc⟩ := h
  exact ⟨c, cs ++ b, rfl, hc⟩

theorem firm_var {x : List Char} (h : VarName x) : Firm x := by
  cases x with
  | nil => exact absurd rfl h.1
  | cons c cs =>
    refine ⟨c, cs, rfl, ?_⟩
    have := h.2 c List.mem_cons_self
    unfold blank
    simp only [List.all_cons, List.all_nil, Bool.and_true]
    have h1 : 65 ≤ c.toNat ∧ c.toNat ≤ 95 := by
      rcases this with ⟨h1, h2⟩ | rfl
      · have h1' : 65 ≤ c.toNat := h1
        have h2' : c.toNat ≤ 90 := h2
        omega
      · decide
    have h2 : (c == ' ') = false := by
      rw [beq_eq_false_iff_ne]
      rintro rfl
      exact absurd h1.1 (by decide)
    rw [h2]
    simp
    omega

/-- The lines of a text. -/
def Shape (t : List Char) (L : List (ℕ × List Char)) : Prop :=
  '\r' ∉ t ∧ numbered (Compiler.lines t) = L ∧ ∀ l ∈ Compiler.lines t, LineOK l

theorem shape_append {a b : List Char} {L M : List (ℕ × List Char)} (ha : Shape a L) (hb : Shape b M) : Shape (a ++ '\n' :: b) (L ++ M) := by
  refine ⟨?_, ?_, ?_⟩
  · simp [ha.1, hb.1]
  · rw [lines_append, numbered_append, ha.2.1, hb.2.1]
  · rw [lines_append]
    exact fun l hl => (List.mem_append.1 hl).elim (ha.2.2 l) (hb.2.2 l)

theorem shape_line {l : List Char} (hf : Flat l) (h : Firm l) : Shape l [(0, l)] := by
  have hn : '\n' ∉ l := fun h' => (hf _ h').1 rfl
  refine ⟨fun h' => (hf _ h').2 rfl, numbered_solid h.solid hn, ?_⟩
  rw [lines_single hn]
  intro x hx
  rw [List.mem_singleton.1 hx]
  exact h.lineOK

theorem shape_nil : Shape [] [] := by
  refine ⟨by simp, rfl, ?_⟩
  intro l hl h
  rw [List.mem_singleton.1 hl]
  rfl

theorem shape_last {a : List Char} {L : List (ℕ × List Char)} (h : Shape a L) : Shape (a ++ "\n".toList) L := by
  have := shape_append h shape_nil
  rwa [List.append_nil] at this

theorem shape_first {a b : List Char} {L : List (ℕ × List Char)} (hf : Flat a) (h : Firm a) (hb : Shape b L) :
    Shape (a ++ '\n' :: b) ((0, a) :: L) := shape_append (shape_line hf h) hb

theorem lineOK_indent {l : List Char} (h : LineOK l) : LineOK ("  ".toList ++ l) := by
  intro hb
  have : blank l = true := by
    unfold blank at hb ⊢
    rw [List.all_append, Bool.and_eq_true] at hb
    exact hb.2
  rw [readLine_indent, h this]
  rfl

theorem shape_indent {s : List Char} {f : Forest} (h : Shape s (entries 0 f)) : Shape (indent s) (entries 2 f) := by
  refine ⟨?_, ?_, ?_⟩
  · intro hc
    rcases mem_indent hc with h' | h' | h'
    · exact absurd h' (by decide)
    · exact absurd h' (by decide)
    · exact h.1 h'
  · rw [numbered_indent, h.2.1, ← entries_shift]
  · rw [lines_indent]
    intro l hl
    obtain ⟨x, hx, rfl⟩ := List.mem_map.1 hl
    exact lineOK_indent (h.2.2 x hx)

/-! ## Statements -/

theorem entries_leaf (k : ℕ) (l : List Char) (f : Forest) : entries k (leaf l f) = (k, l) :: entries k f := rfl

theorem entries_node (k : ℕ) (l : List Char) (g f : Forest) :
    entries k (.cons (.node l g) f) = ((k, l) :: entries (k + 2) g) ++ entries k f := rfl

theorem suite_ne (f : Forest) : suite f ≠ .nil := by
  cases f <;> exact fun h => by cases h

theorem fits_leaf {l : List Char} {f : Forest} (h : Plain l) (hf : Fits f) : Fits (leaf l f) :=
  ⟨⟨⟨fun h' => absurd h' h.1, fun h' => absurd rfl h'⟩, trivial⟩, hf⟩

theorem fits_node {l : List Char} {g f : Forest} (h : Opens l) (hg : Fits g) (hg' : g ≠ .nil) (hf : Fits f) :
    Fits (.cons (.node l g) f) := ⟨⟨⟨fun _ => hg', fun _ => h⟩, hg⟩, hf⟩

theorem fits_suite {f : Forest} (h : Fits f) : Fits (suite f) := by
  cases f with
  | nil => exact fits_leaf ⟨by decide, by decide⟩ trivial
  | cons t f => exact h

theorem opens_colon (a : List Char) : Opens (a ++ ":".toList) := by
  unfold Opens
  rw [List.getLast?_append_of_ne_nil _ (by decide)]
  rfl

theorem opens_colon_paren (a : List Char) : Opens (a ++ "):".toList) := by
  unfold Opens
  rw [List.getLast?_append_of_ne_nil _ (by decide)]
  rfl

theorem outline_ne (fl : Flags) (s : Stmt) (f : Forest) : outline fl s f ≠ .nil := by
  cases s <;> rw [outline] <;> exact fun h => by cases h

/-- What is to be shown of a block. -/
def BlockGood (fl : Flags) (b : Block) (ts : List (List Char)) : Prop :=
  ((ts = [] ∧ blockOutline fl b = .nil) ∨ (ts ≠ [] ∧ blockOutline fl b ≠ .nil ∧ Shape (join "\n".toList ts) (entries 0 (blockOutline fl b)))) ∧
    Fits (blockOutline fl b)

theorem BlockGood.suite {fl : Flags} {b : Block} {ts : List (List Char)} (h : BlockGood fl b ts) :
    Shape (blockText ts) (entries 0 (suite (blockOutline fl b))) ∧ Fits (suite (blockOutline fl b)) := by
  refine ⟨?_, fits_suite h.2⟩
  rcases h.1 with ⟨h1, h2⟩ | ⟨h1, h2, h3⟩
  · rw [h1, h2]
    exact shape_line (by decide) ⟨'p', _, rfl, by decide⟩
  · unfold blockText
    rw [if_neg h1]
    cases hb : blockOutline fl b with
    | nil => exact absurd hb h2
    | cons t f => rw [hb] at h3; exact h3

/-- What is to be shown of a statement. -/
def StmtGood (fl : Flags) (s : Stmt) (t : List Char) : Prop :=
  ∃ L, Shape t L ∧ (∀ f, L ++ entries 0 f = entries 0 (outline fl s f)) ∧ ∀ f, Fits f → Fits (outline fl s f)

/-- What is to be shown of alternatives. -/
def ElseGood (fl : Flags) (r : Else) (t : List Char) : Prop :=
  ∃ L, (∀ a A, Shape a A → Shape (a ++ t) (A ++ L)) ∧ (∀ f, L ++ entries 0 f = entries 0 (elseOutline fl r f)) ∧
    ∀ f, Fits f → Fits (elseOutline fl r f)

theorem good_leaf {fl : Flags} {s : Stmt} {l : List Char} (h1 : Flat l) (h2 : Firm l) (h3 : Plain l)
    (h : ∀ f, outline fl s f = leaf l f) : StmtGood fl s l :=
  ⟨_, shape_line h1 h2, fun f => by rw [h]; rfl, fun f hf => by rw [h]; exact fits_leaf h3 hf⟩

theorem bind_ok {α β : Type} {x : Except Err α} {f : α → Except Err β} {b : β} (h : (x >>= f) = .ok b) :
    ∃ a, x = .ok a ∧ f a = .ok b := by
  cases x with
  | error e => cases h
  | ok a => exact ⟨a, rfl, h⟩

mutual

theorem stmt_good (hd : Lexer.AsciiDigits dig) (fl : Flags) (s : Stmt) (hs : StmtOK dig LineChar s) (t : List Char)
    (h : s.emit fl = .ok t) : StmtGood fl s t := by
  match s with
  | .output e =>
    rw [Stmt.emit] at h
    cases h
    exact good_leaf (flat_callText (by decide) (by simpa using flat_expr hd fl e hs)) (firm_append (firm_append
      (firm_append ⟨'o', _, rfl, by decide⟩ _) _) _) (plain_callText _ _) fun f => rfl
  | .outputNamed e n =>
    rw [Stmt.emit] at h
    cases h
    exact good_leaf (flat_append (flat_append (flat_append (flat_append (by decide) (flat_expr hd fl e hs.1)) (by decide))
      (flat_emitStr fl hs.2)) (by decide)) (firm_append (firm_append (firm_append (firm_append ⟨'o', _, rfl, by decide⟩ _) _) _) _)
      (plain_paren _) fun f => rfl
  | .set n v =>
    rw [Stmt.emit] at h
    cases h
    refine good_leaf (flat_callText (by decide) ?_) (firm_append (firm_append
      (firm_append ⟨'s', _, rfl, by decide⟩ _) _) _) (plain_callText _ _) fun f => ?_
    · intro a ha
      simp only [List.mem_cons, List.not_mem_nil, or_false] at ha
      rcases ha with rfl | rfl
      · exact flat_emitStr fl hs.1
      · exact flat_expr hd fl v hs.2
    · rw [outline]
      simp [callText, join]
  | .function sig body =>
    rw [Stmt.emit] at h
    obtain ⟨r, hr, h⟩ := bind_ok h
    obtain ⟨ls, hls, h⟩ := bind_ok h
    cases h
    have hb := (block_good hd fl body hs.2 ls hls).suite
    have hp := params_ok hs.1 hr
    have hh : defHeader fl sig = defLine fl sig r.1 := by unfold defHeader; rw [hr]
    have hc : copyLine sig = copyText r.2 := by unfold copyLine; rw [hr]; rfl
    have hkids : ∃ kids, outline fl (.function sig body) = (fun f => leaf "@anydice_casting()".toList (.cons (.node (defLine fl sig r.1) kids) f)) ∧
        Shape (varsLine fl r.2 ++ indent (blockText ls)) (entries 2 kids) ∧ Fits kids ∧ kids ≠ .nil := by
      cases hn : fl.nonLocal
      · refine ⟨suite (blockOutline fl body), ?_, ?_, hb.2, suite_ne _⟩
        · funext f
          rw [outline, hn, hh]
          rfl
        · unfold varsLine
          rw [hn]
          exact shape_indent hb.1
      · refine ⟨leaf (copyText r.2) (suite (blockOutline fl body)), ?_, ?_, fits_leaf (plain_copyText hp.2) hb.2, fun h => by cases h⟩
        · funext f
          rw [outline, hn, hh, hc]
          rfl
        · unfold varsLine
          rw [hn, entries_leaf]
          have h1 : Shape (copyText r.2) (entries 0 (leaf (copyText r.2) .nil)) :=
            shape_line (flat_copyText hp.2) (firm_append ⟨'v', _, rfl, by decide⟩ _)
          have h2 := shape_append (shape_indent h1) (shape_indent hb.1)
          have e : (if true = true then indent ("vars = vars.copy(); ".toList ++
              join "; ".toList (r.2.map fun n => "vars[\"".toList ++ n ++ "\"] = ".toList ++ n)) ++ "\n".toList else []) ++
                indent (blockText ls) = indent (copyText r.2) ++ '\n' :: indent (blockText ls) := by
            rw [if_pos rfl, List.append_assoc]
            rfl
          rw [e]
          exact h2
    obtain ⟨kids, hk1, hk2, hk3, hk4⟩ := hkids
    have hshape := shape_first (a := "@anydice_casting()".toList) (by decide) ⟨'@', _, rfl, by decide⟩
      (shape_first (flat_defLine fl hs.1 hp.1) (firm_append (firm_append (firm_append (firm_append ⟨'d', _, rfl, by decide⟩ _) _) _) _)
        (shape_last hk2))
    refine ⟨(0, "@anydice_casting()".toList) :: (0, defLine fl sig r.1) :: entries 2 kids,
      ?_, ?_, ?_⟩
    · have e : functionText fl sig r (blockText ls) = "@anydice_casting()".toList ++ '\n' :: (defLine fl sig r.1 ++
          '\n' :: (varsLine fl r.2 ++ indent (blockText ls) ++ "\n".toList)) := by
        unfold functionText
        rw [show "@anydice_casting()\n".toList = "@anydice_casting()".toList ++ "\n".toList by decide]
        simp only [List.append_assoc]
        rfl
      rw [e]
      exact hshape
    · intro f
      rw [hk1]
      rfl
    · intro f hf
      rw [hk1]
      exact fits_leaf ⟨by decide, by decide⟩ (fits_node (opens_colon_paren _) hk3 hk4 hf)
  | .result e =>
    rw [Stmt.emit] at h
    cases h
    exact good_leaf (flat_append (by decide) (flat_expr hd fl e hs)) (firm_append ⟨'r', _, rfl, by decide⟩ _)
      ((plain_expr hd fl _ e hs).prepend _) fun f => rfl
  | .cond c body rest =>
    rw [Stmt.emit] at h
    obtain ⟨ls, hls, h⟩ := bind_ok h
    obtain ⟨t', ht', h⟩ := bind_ok h
    cases h
    have hb := (block_good hd fl body hs.2.1 ls hls).suite
    obtain ⟨L, h1, h2, h3⟩ := else_good hd fl rest hs.2.2 t' ht'
    have hs1 := shape_first (a := "if ".toList ++ c.emit fl ++ ":".toList)
      (flat_append (flat_append (by decide) (flat_expr hd fl c hs.1)) (by decide))
      (firm_append (firm_append ⟨'i', _, rfl, by decide⟩ _) _) (shape_last (h1 _ _ (shape_indent hb.1)))
    refine ⟨(0, "if ".toList ++ c.emit fl ++ ":".toList) :: (entries 2 (suite (blockOutline fl body)) ++ L),
      ?_, ?_, ?_⟩
    · have e : "if ".toList ++ c.emit fl ++ ":\n".toList ++ indent (blockText ls) ++ t' ++ "\n".toList =
          ("if ".toList ++ c.emit fl ++ ":".toList) ++ '\n' :: (indent (blockText ls) ++ t' ++ "\n".toList) := by
        rw [show ":\n".toList = ":".toList ++ "\n".toList by decide]
        simp only [List.append_assoc]
        rfl
      rw [e]
      exact hs1
    · intro f
      rw [outline, entries_node, ← h2 f]
      simp
    · intro f hf
      rw [outline]
      exact fits_node (opens_colon _) hb.2 (suite_ne _) (h3 f hf)
  | .loop x o body =>
    rw [Stmt.emit] at h
    obtain ⟨ls, hls, h⟩ := bind_ok h
    cases h
    have hb := (block_good hd fl body hs.2.2 ls hls).suite
    have hkids : ∃ kids, outline fl (.loop x o body) =
          (fun f => .cons (.node ("for ".toList ++ x ++ " in ".toList ++ o.emit fl ++ ":".toList) kids) f) ∧
        Shape (loopVars fl x ++ indent (blockText ls)) (entries 2 kids) ∧ Fits kids ∧ kids ≠ .nil := by
      cases hn : fl.nonLocal
      · refine ⟨suite (blockOutline fl body), ?_, ?_, hb.2, suite_ne _⟩
        · funext f
          rw [outline, hn]
          rfl
        · unfold loopVars
          rw [hn]
          exact shape_indent hb.1
      · refine ⟨leaf ("vars['".toList ++ x ++ "'] = ".toList ++ x) (suite (blockOutline fl body)), ?_, ?_,
          fits_leaf ((plain_var hs.1).prepend _) hb.2, fun h => by cases h⟩
        · funext f
          rw [outline, hn]
          rfl
        · unfold loopVars
          rw [hn, entries_leaf]
          have h1 : Shape ("vars['".toList ++ x ++ "'] = ".toList ++ x) (entries 0 (leaf ("vars['".toList ++ x ++ "'] = ".toList ++ x) .nil)) :=
            shape_line (flat_append (flat_append (flat_append (by decide) (flat_var hs.1)) (by decide)) (flat_var hs.1))
              (firm_append (firm_append (firm_append ⟨'v', _, rfl, by decide⟩ _) _) _)
          have h2 := shape_append (shape_indent h1) (shape_indent hb.1)
          have e : (if true = true then indent ("vars['".toList ++ x ++ "'] = ".toList ++ x) ++ "\n".toList else []) ++
                indent (blockText ls) = indent ("vars['".toList ++ x ++ "'] = ".toList ++ x) ++ '\n' :: indent (blockText ls) := by
            rw [if_pos rfl, List.append_assoc]
            rfl
          rw [e]
          exact h2
    obtain ⟨kids, hk1, hk2, hk3, hk4⟩ := hkids
    have hshape := shape_first (a := "for ".toList ++ x ++ " in ".toList ++ o.emit fl ++ ":".toList)
      (flat_append (flat_append (flat_append (flat_append (by decide) (flat_var hs.1)) (by decide)) (flat_expr hd fl o hs.2.1)) (by decide))
      (firm_append (firm_append (firm_append (firm_append ⟨'f', _, rfl, by decide⟩ _) _) _) _) (shape_last hk2)
    refine ⟨(0, "for ".toList ++ x ++ " in ".toList ++ o.emit fl ++ ":".toList) :: entries 2 kids,
      ?_, ?_, ?_⟩
    · have e : "for ".toList ++ x ++ " in ".toList ++ o.emit fl ++ ":\n".toList ++ loopVars fl x ++ indent (blockText ls) ++ "\n".toList =
          ("for ".toList ++ x ++ " in ".toList ++ o.emit fl ++ ":".toList) ++ '\n' :: (loopVars fl x ++ indent (blockText ls) ++ "\n".toList) := by
        rw [show ":\n".toList = ":".toList ++ "\n".toList by decide]
        simp only [List.append_assoc]
        rfl
      rw [e]
      exact hshape
    · intro f
      rw [hk1]
      rfl
    · intro f hf
      rw [hk1]
      exact fits_node (opens_colon _) hk3 hk4 hf
  | .assign x e =>
    rw [Stmt.emit] at h
    cases h
    have h1 := flat_expr hd fl e hs.2
    have h2 := plain_expr hd fl _ e hs.2
    refine good_leaf ?_ ?_ ?_ fun f => rfl
    · unfold assignText
      split
      · exact flat_append (flat_append (flat_append (by decide) (flat_var hs.1)) (by decide)) h1
      · exact flat_append (flat_append (flat_var hs.1) (by decide)) h1
    · unfold assignText
      split
      · exact firm_append (firm_append (firm_append ⟨'v', _, rfl, by decide⟩ _) _) _
      · exact firm_append (firm_append (firm_var hs.1) _) _
    · unfold assignText
      split
      · exact h2.prepend _
      · exact h2.prepend _

theorem block_good (hd : Lexer.AsciiDigits dig) (fl : Flags) (b : Block) (hb : BlockOK dig LineChar b) (ts : List (List Char))
    (h : b.emit fl = .ok ts) : BlockGood fl b ts := by
  match b with
  | .nil =>
    rw [Block.emit] at h
    cases h
    exact ⟨Or.inl ⟨rfl, rfl⟩, trivial⟩
  | .cons s b =>
    rw [Block.emit] at h
    obtain ⟨t, ht, h⟩ := bind_ok h
    obtain ⟨ts', hts', h⟩ := bind_ok h
    cases h
    obtain ⟨L, h1, h2, h3⟩ := stmt_good hd fl s hb.1 t ht
    obtain ⟨h4, h5⟩ := block_good hd fl b hb.2 ts' hts'
    refine ⟨Or.inr ⟨by simp, ?_, ?_⟩, h3 _ h5⟩
    · intro h'
      rw [blockOutline] at h'
      exact outline_ne fl s _ h'
    · rw [blockOutline, ← h2]
      rcases h4 with ⟨h6, h7⟩ | ⟨h6, h7, h8⟩
      · rw [h6, h7]
        rw [entries, List.append_nil]
        exact h1
      · rw [join_cons _ _ h6, List.append_assoc]
        exact shape_append h1 h8

theorem else_good (hd : Lexer.AsciiDigits dig) (fl : Flags) (r : Else) (hr : ElseOK dig LineChar r) (t : List Char)
    (h : r.emit fl = .ok t) : ElseGood fl r t := by
  match r with
  | .done =>
    rw [Else.emit] at h
    cases h
    refine ⟨[], fun a A ha => ?_, fun f => rfl, fun f hf => hf⟩
    rw [List.append_nil, List.append_nil]
    exact ha
  | .else_ body =>
    rw [Else.emit] at h
    obtain ⟨ls, hls, h⟩ := bind_ok h
    cases h
    have hb := (block_good hd fl body hr ls hls).suite
    refine ⟨(0, "else:".toList) :: entries 2 (suite (blockOutline fl body)), fun a A ha => ?_, fun f => rfl,
      fun f hf => fits_node (by decide) hb.2 (suite_ne _) hf⟩
    have e : a ++ ("\nelse:\n".toList ++ indent (blockText ls)) = a ++ '\n' :: ("else:".toList ++ '\n' :: indent (blockText ls)) := rfl
    rw [e]
    exact shape_append ha (shape_first (by decide) ⟨'e', _, rfl, by decide⟩ (shape_indent hb.1))
  | .elif c body rest =>
    rw [Else.emit] at h
    obtain ⟨ls, hls, h⟩ := bind_ok h
    obtain ⟨t', ht', h⟩ := bind_ok h
    cases h
    have hb := (block_good hd fl body hr.2.1 ls hls).suite
    obtain ⟨L, h1, h2, h3⟩ := else_good hd fl rest hr.2.2 t' ht'
    refine ⟨(0, "elif ".toList ++ c.emit fl ++ ":".toList) :: (entries 2 (suite (blockOutline fl body)) ++ L), fun a A ha => ?_, fun f => ?_,
      fun f hf => fits_node (opens_colon _) hb.2 (suite_ne _) (h3 f hf)⟩
    · have e : a ++ ("\nelif ".toList ++ c.emit fl ++ ":\n".toList ++ indent (blockText ls) ++ t') =
          a ++ '\n' :: (("elif ".toList ++ c.emit fl ++ ":".toList) ++ '\n' :: (indent (blockText ls) ++ t')) := by
        rw [show ":\n".toList = ":".toList ++ "\n".toList by decide, show "\nelif ".toList = "\n".toList ++ "elif ".toList by decide]
        simp only [List.append_assoc]
        rfl
      rw [e]
      exact shape_append ha (shape_first (flat_append (flat_append (by decide) (flat_expr hd fl c hr.1)) (by decide))
        (firm_append (firm_append ⟨'e', _, rfl, by decide⟩ _) _) (h1 _ _ (shape_indent hb.1)))
    · rw [elseOutline, entries_node, ← h2 f]
      simp

end

/-! ## C40 -/

theorem readFile_shape {s : List Char} {f : Forest} (h : Shape s (entries 0 f)) (hf : Fits f) : readFile (cleanUp s) = some f := by
  have h1 : '\r' ∉ cleanUp s := fun h' => (mem_cleanUp h').elim (fun h => absurd h (by decide)) h.1
  have h2 : (Spec.Py.lines (cleanUp s)).filterMap readLine = entries 0 f := by
    rw [pyLines h1, lines_cleanUp]
    exact (squeeze_numbered _ h.2.2).trans h.2.1
  have h3 := read_forest f hf 0 [] ((entries 0 f).length + 1) (by simp) (fun p hp => by cases hp)
  rw [List.append_nil] at h3
  unfold readFile
  rw [h2, h3]

/-- C40, partial: reading the compiled program by Python's rules of indentation gives exactly the blocks of the source program: under each header
the lines of its body and nothing else, `pass` under the header of an empty body, alternatives after their `if`, and everything in the order of
the source.  Missing: string literals that contain a carriage return, which Python takes for the end of the line
(`C40_return_counterexample`). -/
theorem C40_blocks_partial (hd : Lexer.AsciiDigits dig) (fl : Flags) (p : Block) (hp : BlockOK dig LineChar p) (t : List Char)
    (h : resolve fl p = .ok t) :
    readFile t = some (if fl.nonLocal then leaf "vars = {}".toList (blockOutline (passFlags fl p) p) else blockOutline (passFlags fl p) p) := by
  obtain ⟨r, hr, rfl⟩ := resolve_pass h
  have hnl := passFlags_nonLocal fl p
  generalize passFlags fl p = fl' at hr hnl ⊢
  obtain ⟨⟨ls, hls, rfl⟩, _, ho⟩ := resolveOnce_ok hr
  obtain ⟨h1, h2⟩ := block_good hd fl' p hp ls hls
  have h3 : ls ≠ [] ∧ Shape (join "\n".toList ls) (entries 0 (blockOutline fl' p)) := by
    rcases h1 with ⟨h3, h4⟩ | ⟨h3, _, h4⟩
    · exfalso
      cases p with
      | nil => exact ho rfl
      | cons s b => exact outline_ne fl' s _ h4
    · exact ⟨h3, h4⟩
  have h4 : Shape (blockText ls ++ "\n".toList) (entries 0 (blockOutline fl' p)) := by
    unfold blockText
    rw [if_neg h3.1]
    exact shape_last h3.2
  rw [hnl]
  cases hn : fl.nonLocal
  · exact readFile_shape h4 h2
  · refine readFile_shape ?_ (fits_leaf ⟨by decide, by decide⟩ h2)
    have h5 := shape_first (a := "vars = {}".toList) (by decide) ⟨'v', _, rfl, by decide⟩ (shape_append shape_nil h4)
    have e : (if true = true then "vars = {}\n\n".toList else []) ++ blockText ls ++ "\n".toList =
        "vars = {}".toList ++ '\n' :: ([] ++ '\n' :: (blockText ls ++ "\n".toList)) := by
      rw [if_pos rfl, List.append_assoc]
      rfl
    rw [e]
    exact h5

theorem join_intercalate (ls : List (List Char)) : join "\n".toList ls = ['\n'].intercalate ls := by
  induction ls with
  | nil => rfl
  | cons p ps ih =>
    by_cases hp : ps = []
    · subst hp; simp [join]
    · rw [join_cons _ _ hp, ih]
      cases ps with
      | nil => exact absurd rfl hp
      | cons q ps => simp [List.intercalate]

theorem isLines_iff {s : List Char} {ls : List (List Char)} : IsLines s ls ↔ ls = Compiler.lines s := by
  constructor
  · rintro ⟨h1, h2, h3⟩
    rw [← h3, ← join_intercalate, lines_join' _ h1 h2]
  · rintro rfl
    refine ⟨lines_ne s, not_mem_lines, ?_⟩
    rw [← join_intercalate]
    induction s with
    | nil => rfl
    | cons c s ih =>
      by_cases hc : c = '\n'
      · subst hc
        rw [lines_newline, join_cons _ _ (lines_ne s), ih]
        rfl
      · obtain ⟨l, ls, h1, h2⟩ := lines_cons hc s
        rw [h2]
        rw [h1] at ih
        cases ls with
        | nil =>
          have ih' : l = s := ih
          rw [ih']
          rfl
        | cons m ls =>
          rw [join_cons _ _ (by simp)] at ih ⊢
          rw [← ih]
          rfl

theorem blank_iff (l : List Char) : blank l = true ↔ BlankLine l := by
  unfold blank BlankLine
  rw [List.all_eq_true]
  refine forall_congr' fun c => forall_congr' fun _ => ?_
  simp
  constructor
  · rintro ((h | h) | h)
    · exact Or.inl h
    · exact Or.inr (Or.inl h)
    · exact Or.inr (Or.inr h)
  · rintro (h | h | h)
    · exact Or.inl (Or.inl h)
    · exact Or.inl (Or.inr h)
    · exact Or.inr h

/-- **C40**: the removal of blank lines deletes nothing but blank lines, keeps the order, and leaves no two blank lines in a row; this for any
text. -/
theorem C40_blank (s : List Char) (ls ms : List (List Char)) (hls : IsLines s ls) (hms : IsLines (cleanUp s) ms) :
    ms.Sublist ls ∧ ms.filter (fun l => decide (¬ BlankLine l)) = ls.filter (fun l => decide (¬ BlankLine l)) ∧
      ms.head? = ls.head? ∧ List.IsChain (fun a b => ¬ BlankLine a ∨ ¬ BlankLine b) ms := by
  have h1 := isLines_iff.1 hls
  have h2 := isLines_iff.1 hms
  rw [lines_cleanUp, ← h1] at h2
  subst h2
  have hb : (fun l => decide (¬ BlankLine l)) = fun l => !blank l := by
    funext l
    have := blank_iff l
    by_cases h : BlankLine l
    · rw [this.2 h]
      simp [h]
    · rw [Bool.eq_false_iff.2 fun h' => h (this.1 h')]
      simp [h]
  have hnb : ∀ l, blank l = false → ¬ BlankLine l := by
    intro l h h'
    rw [(blank_iff l).2 h'] at h
    cases h
  refine ⟨squeeze_sublist ls, ?_, ?_, ?_⟩
  · rw [hb]
    exact squeeze_filter ls
  · cases ls <;> rfl
  · exact (squeeze_chain ls).imp fun a b h => h.imp (hnb a) (hnb b)

/-- Every text has lines. -/
theorem exists_lines (s : List Char) : ∃ ls, IsLines s ls := ⟨_, isLines_iff.2 rfl⟩

/-- `if 1 { } else { loop I over {1} { if I { } } } output 1` -/
def nested : Block :=
  .cons (.cond (.num ['1']) .nil (.else_ (.cons (.loop ['I'] (.seq (.expr (.num ['1']) .nil)) (.cons (.cond (.var ['I']) .nil .done) .nil)) .nil)))
    (.cons (.output (.num ['1'])) .nil)

/-- The text is not repeated blank lines: two follow the loop before they are squeezed. -/
example : resolve {} nested = .ok "if 1:\n  pass\nelse:\n  for I in get_seq([1]):\n    if I:\n      pass\n    \noutput(1)\n".toList := by decide +kernel

example : BlockOK Char.isDigit LineChar nested := by
  refine ⟨⟨⟨by simp, by decide⟩, trivial, ⟨⟨by simp, by decide⟩, ⟨⟨by simp, by decide⟩, trivial⟩, ⟨⟨by simp, by decide⟩, trivial, trivial⟩, trivial⟩, trivial⟩,
    ⟨by simp, by decide⟩, trivial⟩

/-- The block structure that is read. -/
example : blockOutline {} nested =
    .cons (.node "if 1:".toList (.cons (.node "pass".toList .nil) .nil))
      (.cons (.node "else:".toList (.cons (.node "for I in get_seq([1]):".toList (.cons (.node "if I:".toList (.cons (.node "pass".toList .nil) .nil)) .nil)) .nil))
        (.cons (.node "output(1)".toList .nil) .nil)) := by rfl

/-- A carriage return in a literal breaks a line in two: `output 1 named "a\rb"`. -/
theorem C40_return_counterexample :
    resolve {} (.cons (.outputNamed (.num ['1']) [.text ['a', '\r', 'b']]) .nil) = .ok "output(1, named=f\"a\rb\")\n".toList ∧
      (Spec.Py.lines "output(1, named=f\"a\rb\")\n".toList).filterMap readLine =
        [(0, "output(1, named=f\"a".toList), (0, "b\")".toList)] := by decide +kernel

end PythonDice
