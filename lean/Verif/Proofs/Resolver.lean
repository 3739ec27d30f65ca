import Verif.Model.Resolver
import Verif.Spec.Syntax
import Mathlib.Tactic.Common
import Mathlib.Data.List.TakeWhile
import Mathlib.Data.List.Dedup
import Mathlib.Data.List.Induction
import Std.Data.String.ToNat

/-!
# Lemmas about the code generator: names, calls, definitions, outputs
-/

namespace PythonDice.Compiler

open Spec

/-! ## Joining names -/

/-- Splitting at the first underscore. -/
theorem split_underscore {p q a b : Text} (hp : '_' ∉ p) (hq : '_' ∉ q) (h : p ++ '_' :: a = q ++ '_' :: b) : p = q ∧ a = b := by
  induction p generalizing q with
  | nil =>
    cases q with
    | nil => exact ⟨rfl, (List.cons.inj h).2⟩
    | cons c q => exact absurd (List.mem_cons.2 (Or.inl (List.cons.inj h).1)) hq
  | cons c p ih =>
    cases q with
    | nil => exact absurd (List.mem_cons.2 (Or.inl (List.cons.inj h).1.symm)) hp
    | cons d q =>
      obtain ⟨rfl, h'⟩ := List.cons.inj h
      obtain ⟨rfl, rfl⟩ := ih (fun h => hp (List.mem_cons_of_mem _ h)) (fun h => hq (List.mem_cons_of_mem _ h)) h'
      exact ⟨rfl, rfl⟩

/-- A part of a name. -/
def PartOK (p : Text) : Prop := p ≠ [] ∧ '_' ∉ p

theorem join_inj {a b : List Text} (ha : ∀ p ∈ a, PartOK p) (hb : ∀ p ∈ b, PartOK p)
    (h : join ['_'] a = join ['_'] b) : a = b := by
  induction a generalizing b with
  | nil =>
    cases b with
    | nil => rfl
    | cons q b =>
      have hq := (hb q List.mem_cons_self).1
      cases b <;> simp [join, hq] at h
  | cons p a ih =>
    have hp := ha p List.mem_cons_self
    cases b with
    | nil => cases a <;> simp [join, hp.1] at h
    | cons q b =>
      have hq := hb q List.mem_cons_self
      have ha' : ∀ p ∈ a, PartOK p := fun x hx => ha x (List.mem_cons_of_mem _ hx)
      have hb' : ∀ p ∈ b, PartOK p := fun x hx => hb x (List.mem_cons_of_mem _ hx)
      cases a with
      | nil =>
        cases b with
        | nil => simpa [join] using h
        | cons q' b =>
          simp only [join, List.append_assoc, List.cons_append, List.nil_append] at h
          exact absurd (by rw [h]; simp) hp.2
      | cons p' a =>
        cases b with
        | nil =>
          simp only [join, List.append_assoc, List.cons_append, List.nil_append] at h
          exact absurd (by rw [← h]; simp) hq.2
        | cons q' b =>
          simp only [join, List.append_assoc, List.cons_append, List.nil_append] at h
          obtain ⟨rfl, h'⟩ := split_underscore hp.2 hq.2 h
          rw [ih ha' hb' h']

/-- The parts of the name of a signature. -/
def sigParts (s : Sig) : List Text := s.map fun o => o.getD ['X']

theorem sigParts_ok {s : Sig} (h : SigOK s) : ∀ p ∈ sigParts s, PartOK p := by
  intro p hp
  obtain ⟨o, ho, rfl⟩ := List.mem_map.1 hp
  cases o with
  | none => exact ⟨by decide, by decide⟩
  | some w =>
    have := h w ho
    exact ⟨this.1, fun hw => absurd (this.2 _ hw) (by decide)⟩

theorem sigParts_inj {s t : Sig} (hs : SigOK s) (ht : SigOK t) (h : sigParts s = sigParts t) : s = t := by
  have hX : ¬ LowLetter 'X' := by decide
  induction s generalizing t with
  | nil => cases t with
    | nil => rfl
    | cons o t => cases h
  | cons o s ih => cases t with
    | nil => cases h
    | cons o' t =>
      obtain ⟨h1, h2⟩ := List.cons.inj h
      rw [ih (fun w hw => hs w (List.mem_cons_of_mem _ hw)) (fun w hw => ht w (List.mem_cons_of_mem _ hw)) h2]
      congr 1
      cases o with
      | none => cases o' with
        | none => rfl
        | some w =>
          have hw := ht w List.mem_cons_self
          have h1 : ['X'] = w := h1
          rw [← h1] at hw
          exact absurd (hw.2 _ List.mem_cons_self) hX
      | some w => cases o' with
        | none =>
          have hw := hs w List.mem_cons_self
          have h1 : w = ['X'] := h1
          rw [h1] at hw
          exact absurd (hw.2 _ List.mem_cons_self) hX
        | some w' => exact congrArg some h1

theorem mangle_inj (fl : Flags) {s t : Sig} (hs : SigOK s) (ht : SigOK t) (h : mangle fl (sigParts s) = mangle fl (sigParts t)) :
    s = t := by
  unfold mangle at h
  have hf : PartOK ['f'] := ⟨by decide, by decide⟩
  cases hl : fl.libConflict
  · rw [hl] at h
    exact sigParts_inj hs ht (join_inj (sigParts_ok hs) (sigParts_ok ht) h)
  · rw [hl] at h
    have : ∀ {s : Sig}, SigOK s → ∀ p ∈ ['f'] :: sigParts s, PartOK p := by
      intro s hs p hp
      rcases List.mem_cons.1 hp with rfl | hp
      · exact hf
      · exact sigParts_ok hs p hp
    exact sigParts_inj hs ht (List.cons.inj (join_inj (this hs) (this ht) h)).2

theorem def_names (d : List DefPart) : d.map DefPart.name = sigParts (defSig d) := by
  unfold sigParts defSig
  rw [List.map_map]
  refine List.map_congr_left fun x _ => ?_
  cases x <;> rfl

theorem call_names : ∀ cs : CallParts, cs.names = sigParts (callSig cs)
  | .nil => rfl
  | .word w cs => by rw [CallParts.names, call_names cs]; rfl
  | .arg e cs => by rw [CallParts.names, call_names cs]; rfl

/-! ## What the generator records -/

mutual

theorem mem_exprCalls (fl : Flags) (f : Text) :
    ∀ e : Expr, f ∈ e.calls fl ↔ ∃ cs, SubExpr (.call cs) e ∧ mangle fl cs.names = f
  | .num _ => by
    simp only [Expr.calls, List.not_mem_nil, false_iff, not_exists, not_and]
    intro cs h; cases h
  | .dec _ _ => by
    simp only [Expr.calls, List.not_mem_nil, false_iff, not_exists, not_and]
    intro cs h; cases h
  | .var _ => by
    simp only [Expr.calls, List.not_mem_nil, false_iff, not_exists, not_and]
    intro cs h; cases h
  | .str _ => by
    simp only [Expr.calls, List.not_mem_nil, false_iff, not_exists, not_and]
    intro cs h; cases h
  | .group e => by
    rw [Expr.calls, mem_exprCalls fl f e]
    constructor
    · rintro ⟨cs, h, rfl⟩; exact ⟨cs, .group h, rfl⟩
    · rintro ⟨cs, h, rfl⟩; cases h with | group h => exact ⟨cs, h, rfl⟩
  | .bin op l r => by
    rw [Expr.calls, List.mem_append, mem_exprCalls fl f l, mem_exprCalls fl f r]
    constructor
    · rintro (⟨cs, h, rfl⟩ | ⟨cs, h, rfl⟩)
      · exact ⟨cs, .binL h, rfl⟩
      · exact ⟨cs, .binR h, rfl⟩
    · rintro ⟨cs, h, rfl⟩
      cases h with
      | binL h => exact Or.inl ⟨cs, h, rfl⟩
      | binR h => exact Or.inr ⟨cs, h, rfl⟩
  | .ndm l r => by
    rw [Expr.calls, List.mem_append, mem_exprCalls fl f l, mem_exprCalls fl f r]
    constructor
    · rintro (⟨cs, h, rfl⟩ | ⟨cs, h, rfl⟩)
      · exact ⟨cs, .ndmL h, rfl⟩
      · exact ⟨cs, .ndmR h, rfl⟩
    · rintro ⟨cs, h, rfl⟩
      cases h with
      | ndmL h => exact Or.inl ⟨cs, h, rfl⟩
      | ndmR h => exact Or.inr ⟨cs, h, rfl⟩
  | .dm r => by
    rw [Expr.calls, mem_exprCalls fl f r]
    constructor
    · rintro ⟨cs, h, rfl⟩; exact ⟨cs, .dm h, rfl⟩
    · rintro ⟨cs, h, rfl⟩; cases h with | dm h => exact ⟨cs, h, rfl⟩
  | .unary op e => by
    rw [Expr.calls, mem_exprCalls fl f e]
    constructor
    · rintro ⟨cs, h, rfl⟩; exact ⟨cs, .unary h, rfl⟩
    · rintro ⟨cs, h, rfl⟩; cases h with | unary h => exact ⟨cs, h, rfl⟩
  | .hash e => by
    rw [Expr.calls, mem_exprCalls fl f e]
    constructor
    · rintro ⟨cs, h, rfl⟩; exact ⟨cs, .hash h, rfl⟩
    · rintro ⟨cs, h, rfl⟩; cases h with | hash h => exact ⟨cs, h, rfl⟩
  | .seq es => by
    rw [Expr.calls, mem_elemCalls fl f es]
    constructor
    · rintro ⟨cs, h, rfl⟩; exact ⟨cs, .seq h, rfl⟩
    · rintro ⟨cs, h, rfl⟩; cases h with | seq h => exact ⟨cs, h, rfl⟩
  | .call cs => by
    rw [Expr.calls, List.mem_cons, mem_argCalls fl f cs]
    constructor
    · rintro (rfl | ⟨cs, h, rfl⟩)
      · exact ⟨cs, .refl _, rfl⟩
      · exact ⟨cs, .call h, rfl⟩
    · rintro ⟨cs, h, rfl⟩
      cases h with
      | refl => exact Or.inl rfl
      | call h => exact Or.inr ⟨cs, h, rfl⟩

theorem mem_elemCalls (fl : Flags) (f : Text) :
    ∀ es : Elems, f ∈ es.calls fl ↔ ∃ cs, SubElem (.call cs) es ∧ mangle fl cs.names = f
  | .nil => by
    simp only [Elems.calls, List.not_mem_nil, false_iff, not_exists, not_and]
    intro cs h; cases h
  | .expr e es => by
    rw [Elems.calls, List.mem_append, mem_exprCalls fl f e, mem_elemCalls fl f es]
    constructor
    · rintro (⟨cs, h, rfl⟩ | ⟨cs, h, rfl⟩)
      · exact ⟨cs, .expr h, rfl⟩
      · exact ⟨cs, .afterExpr h, rfl⟩
    · rintro ⟨cs, h, rfl⟩
      cases h with
      | expr h => exact Or.inl ⟨cs, h, rfl⟩
      | afterExpr h => exact Or.inr ⟨cs, h, rfl⟩
  | .range l r es => by
    rw [Elems.calls, List.mem_append, List.mem_append, mem_exprCalls fl f l, mem_exprCalls fl f r, mem_elemCalls fl f es]
    constructor
    · rintro ((⟨cs, h, rfl⟩ | ⟨cs, h, rfl⟩) | ⟨cs, h, rfl⟩)
      · exact ⟨cs, .rangeL h, rfl⟩
      · exact ⟨cs, .rangeR h, rfl⟩
      · exact ⟨cs, .afterRange h, rfl⟩
    · rintro ⟨cs, h, rfl⟩
      cases h with
      | rangeL h => exact Or.inl (Or.inl ⟨cs, h, rfl⟩)
      | rangeR h => exact Or.inl (Or.inr ⟨cs, h, rfl⟩)
      | afterRange h => exact Or.inr ⟨cs, h, rfl⟩

theorem mem_argCalls (fl : Flags) (f : Text) :
    ∀ as : CallParts, f ∈ as.calls fl ↔ ∃ cs, SubArg (.call cs) as ∧ mangle fl cs.names = f
  | .nil => by
    simp only [CallParts.calls, List.not_mem_nil, false_iff, not_exists, not_and]
    intro cs h; cases h
  | .word w as => by
    rw [CallParts.calls, mem_argCalls fl f as]
    constructor
    · rintro ⟨cs, h, rfl⟩; exact ⟨cs, .afterWord h, rfl⟩
    · rintro ⟨cs, h, rfl⟩; cases h with | afterWord h => exact ⟨cs, h, rfl⟩
  | .arg e as => by
    rw [CallParts.calls, List.mem_append, mem_exprCalls fl f e, mem_argCalls fl f as]
    constructor
    · rintro (⟨cs, h, rfl⟩ | ⟨cs, h, rfl⟩)
      · exact ⟨cs, .arg h, rfl⟩
      · exact ⟨cs, .afterArg h, rfl⟩
    · rintro ⟨cs, h, rfl⟩
      cases h with
      | arg h => exact Or.inl ⟨cs, h, rfl⟩
      | afterArg h => exact Or.inr ⟨cs, h, rfl⟩

end

/-- The statement is one of the first, or occurs inside. -/
def InStmt (s t : Stmt) : Prop := StmtIn s (.cons t .nil)

theorem stmtIn_cons {s t : Stmt} {b : Block} : StmtIn s (.cons t b) ↔ InStmt s t ∨ StmtIn s b := by
  constructor
  · intro h
    cases h with
    | head => exact Or.inl (.head _ _)
    | tail h => exact Or.inr h
    | function h => exact Or.inl (.function h)
    | loop h => exact Or.inl (.loop h)
    | cond h => exact Or.inl (.cond h)
    | condRest h => exact Or.inl (.condRest h)
  · rintro (h | h)
    · cases h with
      | head => exact .head _ _
      | tail h => cases h
      | function h => exact .function h
      | loop h => exact .loop h
      | cond h => exact .cond h
      | condRest h => exact .condRest h
    · exact .tail h

theorem inStmt_function {s : Stmt} {d : List DefPart} {body : Block} :
    InStmt s (.function d body) ↔ s = .function d body ∨ StmtIn s body := by
  constructor
  · intro h
    cases h with
    | head => exact Or.inl rfl
    | tail h => cases h
    | function h => exact Or.inr h
  · rintro (rfl | h)
    · exact .head _ _
    · exact .function h

theorem inStmt_loop {s : Stmt} {x : Text} {e : Expr} {body : Block} :
    InStmt s (.loop x e body) ↔ s = .loop x e body ∨ StmtIn s body := by
  constructor
  · intro h
    cases h with
    | head => exact Or.inl rfl
    | tail h => cases h
    | loop h => exact Or.inr h
  · rintro (rfl | h)
    · exact .head _ _
    · exact .loop h

theorem inStmt_cond {s : Stmt} {c : Expr} {body : Block} {rest : Else} :
    InStmt s (.cond c body rest) ↔ s = .cond c body rest ∨ StmtIn s body ∨ StmtInElse s rest := by
  constructor
  · intro h
    cases h with
    | head => exact Or.inl rfl
    | tail h => cases h
    | cond h => exact Or.inr (Or.inl h)
    | condRest h => exact Or.inr (Or.inr h)
  · rintro (rfl | h | h)
    · exact .head _ _
    · exact .cond h
    · exact .condRest h

/-- Statements without blocks. -/
theorem inStmt_leaf {s t : Stmt} (h1 : ∀ d b, t ≠ .function d b) (h2 : ∀ x e b, t ≠ .loop x e b) (h3 : ∀ c b r, t ≠ .cond c b r) :
    InStmt s t ↔ s = t := by
  constructor
  · intro h
    cases h with
    | head => rfl
    | tail h => cases h
    | function h => exact absurd rfl (h1 _ _)
    | loop h => exact absurd rfl (h2 _ _ _)
    | cond h => exact absurd rfl (h3 _ _ _)
    | condRest h => exact absurd rfl (h3 _ _ _)
  · rintro rfl; exact .head _ _

theorem not_stmtIn_nil {s : Stmt} : ¬ StmtIn s .nil := by intro h; cases h

mutual

theorem mem_stmtDefs (fl : Flags) (f : Text) : ∀ s : Stmt,
    f ∈ s.defs fl ↔ ∃ d body, InStmt (.function d body) s ∧ mangle fl (d.map DefPart.name) = f
  | .function d body => by
    rw [Stmt.defs, List.mem_cons, mem_blockDefs fl f body]
    simp only [inStmt_function]
    constructor
    · rintro (rfl | ⟨d', b', h, rfl⟩)
      · exact ⟨d, body, Or.inl rfl, rfl⟩
      · exact ⟨d', b', Or.inr h, rfl⟩
    · rintro ⟨d', b', h | h, rfl⟩
      · cases h; exact Or.inl rfl
      · exact Or.inr ⟨d', b', h, rfl⟩
  | .cond c body rest => by
    rw [Stmt.defs, List.mem_append, mem_blockDefs fl f body, mem_elseDefs fl f rest]
    simp only [inStmt_cond]
    constructor
    · rintro (⟨d', b', h, rfl⟩ | ⟨d', b', h, rfl⟩)
      · exact ⟨d', b', Or.inr (Or.inl h), rfl⟩
      · exact ⟨d', b', Or.inr (Or.inr h), rfl⟩
    · rintro ⟨d', b', h | h | h, rfl⟩
      · cases h
      · exact Or.inl ⟨d', b', h, rfl⟩
      · exact Or.inr ⟨d', b', h, rfl⟩
  | .loop x e body => by
    rw [Stmt.defs, mem_blockDefs fl f body]
    simp only [inStmt_loop]
    constructor
    · rintro ⟨d', b', h, rfl⟩
      exact ⟨d', b', Or.inr h, rfl⟩
    · rintro ⟨d', b', h | h, rfl⟩
      · cases h
      · exact ⟨d', b', h, rfl⟩
  | .output _ => by simp [Stmt.defs, inStmt_leaf]
  | .outputNamed _ _ => by simp [Stmt.defs, inStmt_leaf]
  | .set _ _ => by simp [Stmt.defs, inStmt_leaf]
  | .result _ => by simp [Stmt.defs, inStmt_leaf]
  | .assign _ _ => by simp [Stmt.defs, inStmt_leaf]

theorem mem_blockDefs (fl : Flags) (f : Text) : ∀ b : Block,
    f ∈ b.defs fl ↔ ∃ d body, StmtIn (.function d body) b ∧ mangle fl (d.map DefPart.name) = f
  | .nil => by simp [Block.defs, not_stmtIn_nil]
  | .cons s b => by
    rw [Block.defs, List.mem_append, mem_stmtDefs fl f s, mem_blockDefs fl f b]
    simp only [stmtIn_cons (t := s)]
    constructor
    · rintro (⟨d', b', h, rfl⟩ | ⟨d', b', h, rfl⟩)
      · exact ⟨d', b', Or.inl h, rfl⟩
      · exact ⟨d', b', Or.inr h, rfl⟩
    · rintro ⟨d', b', h | h, rfl⟩
      · exact Or.inl ⟨d', b', h, rfl⟩
      · exact Or.inr ⟨d', b', h, rfl⟩

theorem mem_elseDefs (fl : Flags) (f : Text) : ∀ r : Else,
    f ∈ r.defs fl ↔ ∃ d body, StmtInElse (.function d body) r ∧ mangle fl (d.map DefPart.name) = f
  | .done => by
    simp only [Else.defs, List.not_mem_nil, false_iff, not_exists, not_and]
    intro d b h; cases h
  | .else_ body => by
    rw [Else.defs, mem_blockDefs fl f body]
    constructor
    · rintro ⟨d', b', h, rfl⟩; exact ⟨d', b', .else_ h, rfl⟩
    · rintro ⟨d', b', h, rfl⟩; cases h with | else_ h => exact ⟨d', b', h, rfl⟩
  | .elif c body rest => by
    rw [Else.defs, List.mem_append, mem_blockDefs fl f body, mem_elseDefs fl f rest]
    constructor
    · rintro (⟨d', b', h, rfl⟩ | ⟨d', b', h, rfl⟩)
      · exact ⟨d', b', .elif h, rfl⟩
      · exact ⟨d', b', .rest h, rfl⟩
    · rintro ⟨d', b', h, rfl⟩
      cases h with
      | elif h => exact Or.inl ⟨d', b', h, rfl⟩
      | rest h => exact Or.inr ⟨d', b', h, rfl⟩

end

/-- Calls in a set of statements. -/
def CallsIn (fl : Flags) (f : Text) (P : Stmt → Prop) : Prop :=
  ∃ st e cs, P st ∧ ExprOf e st ∧ SubExpr (.call cs) e ∧ mangle fl cs.names = f

theorem callsIn_or (fl : Flags) (f : Text) (P Q : Stmt → Prop) :
    CallsIn fl f (fun s => P s ∨ Q s) ↔ CallsIn fl f P ∨ CallsIn fl f Q := by
  constructor
  · rintro ⟨st, e, cs, h | h, h'⟩
    · exact Or.inl ⟨st, e, cs, h, h'⟩
    · exact Or.inr ⟨st, e, cs, h, h'⟩
  · rintro (⟨st, e, cs, h, h'⟩ | ⟨st, e, cs, h, h'⟩)
    · exact ⟨st, e, cs, Or.inl h, h'⟩
    · exact ⟨st, e, cs, Or.inr h, h'⟩

theorem callsIn_eq (fl : Flags) (f : Text) (t : Stmt) (e : Expr) (h : ∀ e', ExprOf e' t ↔ e' = e) :
    CallsIn fl f (· = t) ↔ f ∈ e.calls fl := by
  rw [mem_exprCalls]
  constructor
  · rintro ⟨st, e', cs, rfl, he, hs, hm⟩
    rw [h] at he
    subst he
    exact ⟨cs, hs, hm⟩
  · rintro ⟨cs, hs, hm⟩
    exact ⟨t, e, cs, rfl, (h e).2 rfl, hs, hm⟩

theorem callsIn_congr (fl : Flags) (f : Text) {P Q : Stmt → Prop} (h : ∀ s, P s ↔ Q s) : CallsIn fl f P ↔ CallsIn fl f Q := by
  rw [funext fun s => propext (h s)]

/-- Calls in the conditions of alternatives. -/
def ElifCalls (fl : Flags) (f : Text) (r : Else) : Prop := ∃ e cs, ElifCond e r ∧ SubExpr (.call cs) e ∧ mangle fl cs.names = f

mutual

theorem mem_stmtCalls (fl : Flags) (f : Text) : ∀ s : Stmt, f ∈ s.calls fl ↔ CallsIn fl f (InStmt · s)
  | .function d body => by
    rw [Stmt.calls, mem_blockCalls fl f body, callsIn_congr fl f fun _ => inStmt_function, callsIn_or]
    constructor
    · exact Or.inr
    · rintro (⟨st, e, cs, rfl, he, _⟩ | h)
      · cases he
      · exact h
  | .cond c body rest => by
    rw [Stmt.calls, List.mem_append, List.mem_append, mem_blockCalls fl f body, mem_elseCalls fl f rest, mem_exprCalls,
      callsIn_congr fl f fun _ => inStmt_cond, callsIn_or, callsIn_or]
    constructor
    · rintro ((⟨cs, h, hm⟩ | h) | ⟨e, cs, h1, h2, h3⟩ | h)
      · exact Or.inl ⟨_, _, cs, rfl, .cond _ _ _, h, hm⟩
      · exact Or.inr (Or.inl h)
      · exact Or.inl ⟨_, _, cs, rfl, .elif h1, h2, h3⟩
      · exact Or.inr (Or.inr h)
    · rintro (⟨st, e, cs, rfl, he, hs, hm⟩ | h | h)
      · cases he with
        | cond => exact Or.inl (Or.inl ⟨cs, hs, hm⟩)
        | elif h => exact Or.inr (Or.inl ⟨e, cs, h, hs, hm⟩)
      · exact Or.inl (Or.inr h)
      · exact Or.inr (Or.inr h)
  | .loop x e body => by
    rw [Stmt.calls, List.mem_append, mem_blockCalls fl f body, callsIn_congr fl f fun _ => inStmt_loop, callsIn_or,
      callsIn_eq fl f _ e]
    intro e'
    constructor
    · intro h; cases h; rfl
    · rintro rfl; exact .loop _ _ _
  | .output e => by
    rw [Stmt.calls, callsIn_congr fl f fun _ => inStmt_leaf (by simp) (by simp) (by simp), callsIn_eq fl f _ e]
    intro e'
    constructor
    · intro h; cases h; rfl
    · rintro rfl; exact .output _
  | .outputNamed e n => by
    rw [Stmt.calls, callsIn_congr fl f fun _ => inStmt_leaf (by simp) (by simp) (by simp), callsIn_eq fl f _ e]
    intro e'
    constructor
    · intro h; cases h; rfl
    · rintro rfl; exact .outputNamed _ _
  | .set n e => by
    rw [Stmt.calls, callsIn_congr fl f fun _ => inStmt_leaf (by simp) (by simp) (by simp), callsIn_eq fl f _ e]
    intro e'
    constructor
    · intro h; cases h; rfl
    · rintro rfl; exact .set _ _
  | .result e => by
    rw [Stmt.calls, callsIn_congr fl f fun _ => inStmt_leaf (by simp) (by simp) (by simp), callsIn_eq fl f _ e]
    intro e'
    constructor
    · intro h; cases h; rfl
    · rintro rfl; exact .result _
  | .assign x e => by
    rw [Stmt.calls, callsIn_congr fl f fun _ => inStmt_leaf (by simp) (by simp) (by simp), callsIn_eq fl f _ e]
    intro e'
    constructor
    · intro h; cases h; rfl
    · rintro rfl; exact .assign _ _

theorem mem_blockCalls (fl : Flags) (f : Text) : ∀ b : Block, f ∈ b.calls fl ↔ CallsIn fl f (StmtIn · b)
  | .nil => by
    simp only [Block.calls, List.not_mem_nil, false_iff]
    rintro ⟨st, e, cs, h, _⟩
    cases h
  | .cons s b => by
    rw [Block.calls, List.mem_append, mem_stmtCalls fl f s, mem_blockCalls fl f b,
      callsIn_congr fl f fun _ => stmtIn_cons (t := s) (b := b), callsIn_or]

theorem mem_elseCalls (fl : Flags) (f : Text) : ∀ r : Else,
    f ∈ r.calls fl ↔ ElifCalls fl f r ∨ CallsIn fl f (StmtInElse · r)
  | .done => by
    simp only [Else.calls, List.not_mem_nil, false_iff]
    rintro (⟨e, cs, h, _⟩ | ⟨st, e, cs, h, _⟩) <;> cases h
  | .else_ body => by
    rw [Else.calls, mem_blockCalls fl f body]
    constructor
    · rintro ⟨st, e, cs, h, h'⟩; exact Or.inr ⟨st, e, cs, .else_ h, h'⟩
    · rintro (⟨e, cs, h, _⟩ | ⟨st, e, cs, h, h'⟩)
      · cases h
      · cases h with | else_ h => exact ⟨st, e, cs, h, h'⟩
  | .elif c body rest => by
    rw [Else.calls, List.mem_append, List.mem_append, mem_blockCalls fl f body, mem_elseCalls fl f rest, mem_exprCalls]
    constructor
    · rintro ((⟨cs, h, hm⟩ | ⟨st, e, cs, h, h'⟩) | ⟨e, cs, h, h'⟩ | ⟨st, e, cs, h, h'⟩)
      · exact Or.inl ⟨c, cs, .here _ _ _, h, hm⟩
      · exact Or.inr ⟨st, e, cs, .elif h, h'⟩
      · exact Or.inl ⟨e, cs, .rest h, h'⟩
      · exact Or.inr ⟨st, e, cs, .rest h, h'⟩
    · rintro (⟨e, cs, h, h'⟩ | ⟨st, e, cs, h, h'⟩)
      · cases h with
        | here => exact Or.inl (Or.inl ⟨cs, h'⟩)
        | rest h => exact Or.inr (Or.inl ⟨e, cs, h, h'⟩)
      · cases h with
        | elif h => exact Or.inl (Or.inr ⟨st, e, cs, h, h'⟩)
        | rest h => exact Or.inr (Or.inr ⟨st, e, cs, h, h'⟩)

end

/-- Output statements. -/
def IsOutput (s : Stmt) : Prop := (∃ e, s = .output e) ∨ ∃ e n, s = .outputNamed e n

mutual

theorem stmt_outputs : ∀ s : Stmt, s.outputs ≠ 0 ↔ ∃ t, IsOutput t ∧ InStmt t s
  | .function d body => by
    rw [Stmt.outputs, block_outputs body]
    simp only [inStmt_function]
    constructor
    · rintro ⟨t, h, h'⟩; exact ⟨t, h, Or.inr h'⟩
    · rintro ⟨t, h, rfl | h'⟩
      · rcases h with ⟨e, h⟩ | ⟨e, n, h⟩ <;> cases h
      · exact ⟨t, h, h'⟩
  | .cond c body rest => by
    have h1 := block_outputs body
    have h2 := else_outputs rest
    have : (Stmt.cond c body rest).outputs ≠ 0 ↔ body.outputs ≠ 0 ∨ rest.outputs ≠ 0 := by
      rw [Stmt.outputs]; omega
    rw [this, h1, h2]
    simp only [inStmt_cond]
    constructor
    · rintro (⟨t, h, h'⟩ | ⟨t, h, h'⟩)
      · exact ⟨t, h, Or.inr (Or.inl h')⟩
      · exact ⟨t, h, Or.inr (Or.inr h')⟩
    · rintro ⟨t, h, rfl | h' | h'⟩
      · rcases h with ⟨e, h⟩ | ⟨e, n, h⟩ <;> cases h
      · exact Or.inl ⟨t, h, h'⟩
      · exact Or.inr ⟨t, h, h'⟩
  | .loop x e body => by
    rw [Stmt.outputs, block_outputs body]
    simp only [inStmt_loop]
    constructor
    · rintro ⟨t, h, h'⟩; exact ⟨t, h, Or.inr h'⟩
    · rintro ⟨t, h, rfl | h'⟩
      · rcases h with ⟨e, h⟩ | ⟨e, n, h⟩ <;> cases h
      · exact ⟨t, h, h'⟩
  | .output _ => by simp [Stmt.outputs, inStmt_leaf, IsOutput]
  | .outputNamed _ _ => by simp [Stmt.outputs, inStmt_leaf, IsOutput]
  | .set _ _ => by simp [Stmt.outputs, inStmt_leaf, IsOutput]
  | .result _ => by simp [Stmt.outputs, inStmt_leaf, IsOutput]
  | .assign _ _ => by simp [Stmt.outputs, inStmt_leaf, IsOutput]

theorem block_outputs : ∀ b : Block, b.outputs ≠ 0 ↔ ∃ t, IsOutput t ∧ StmtIn t b
  | .nil => by simp [Block.outputs, not_stmtIn_nil]
  | .cons s b => by
    have h1 := stmt_outputs s
    have h2 := block_outputs b
    have : (Block.cons s b).outputs ≠ 0 ↔ s.outputs ≠ 0 ∨ b.outputs ≠ 0 := by
      rw [Block.outputs]; omega
    rw [this, h1, h2]
    simp only [stmtIn_cons (t := s) (b := b)]
    constructor
    · rintro (⟨t, h, h'⟩ | ⟨t, h, h'⟩)
      · exact ⟨t, h, Or.inl h'⟩
      · exact ⟨t, h, Or.inr h'⟩
    · rintro ⟨t, h, h' | h'⟩
      · exact Or.inl ⟨t, h, h'⟩
      · exact Or.inr ⟨t, h, h'⟩

theorem else_outputs : ∀ r : Else, r.outputs ≠ 0 ↔ ∃ t, IsOutput t ∧ StmtInElse t r
  | .done => by
    simp only [Else.outputs, ne_eq, not_true_eq_false, false_iff, not_exists, not_and]
    intro t _ h; cases h
  | .else_ body => by
    rw [Else.outputs, block_outputs body]
    constructor
    · rintro ⟨t, h, h'⟩; exact ⟨t, h, .else_ h'⟩
    · rintro ⟨t, h, h'⟩; cases h' with | else_ h' => exact ⟨t, h, h'⟩
  | .elif c body rest => by
    have h1 := block_outputs body
    have h2 := else_outputs rest
    have : (Else.elif c body rest).outputs ≠ 0 ↔ body.outputs ≠ 0 ∨ rest.outputs ≠ 0 := by
      rw [Else.outputs]; omega
    rw [this, h1, h2]
    constructor
    · rintro (⟨t, h, h'⟩ | ⟨t, h, h'⟩)
      · exact ⟨t, h, .elif h'⟩
      · exact ⟨t, h, .rest h'⟩
    · rintro ⟨t, h, h'⟩
      cases h' with
      | elif h' => exact Or.inl ⟨t, h, h'⟩
      | rest h' => exact Or.inr ⟨t, h, h'⟩

end

theorem outputs_iff (p : Block) : p.outputs ≠ 0 ↔ Outputs p := by
  rw [block_outputs]
  constructor
  · rintro ⟨t, ⟨e, rfl⟩ | ⟨e, n, rfl⟩, h⟩
    · exact Or.inl ⟨e, h⟩
    · exact Or.inr ⟨e, n, h⟩
  · rintro (⟨e, h⟩ | ⟨e, n, h⟩)
    · exact ⟨_, Or.inl ⟨e, rfl⟩, h⟩
    · exact ⟨_, Or.inr ⟨e, n, rfl⟩, h⟩

/-- The recorded calls are the mangled signatures of the calls in the program. -/
theorem mem_calls (fl : Flags) (p : Block) (f : Text) : f ∈ p.calls fl ↔ ∃ s, Calls p s ∧ mangle fl (sigParts s) = f := by
  rw [mem_blockCalls]
  constructor
  · rintro ⟨st, e, cs, h1, h2, h3, h4⟩
    exact ⟨callSig cs, ⟨st, e, cs, h1, h2, h3, rfl⟩, by rw [← call_names]; exact h4⟩
  · rintro ⟨s, ⟨st, e, cs, h1, h2, h3, rfl⟩, h4⟩
    exact ⟨st, e, cs, h1, h2, h3, by rw [call_names]; exact h4⟩

/-- The recorded definitions. -/
theorem mem_defs (fl : Flags) (p : Block) (f : Text) : f ∈ p.defs fl ↔ ∃ s, Defines p s ∧ mangle fl (sigParts s) = f := by
  rw [mem_blockDefs]
  constructor
  · rintro ⟨d, b, h, h'⟩
    exact ⟨defSig d, ⟨d, b, h, rfl⟩, by rw [← def_names]; exact h'⟩
  · rintro ⟨s, ⟨d, b, h, rfl⟩, h'⟩
    exact ⟨d, b, h, by rw [def_names]; exact h'⟩

/-! ## Duplicate parameters -/

theorem fixAt_cases (i : ℕ) (st : List Param × List Text) :
    (∃ r, fixAt i st = .ok r) ∨ fixAt i st = .error .indexError := by
  unfold fixAt
  cases st.2[i]? with
  | none => exact Or.inr rfl
  | some n =>
    simp only
    split_ifs
    · cases h : st.1[i]? with
      | none => exact Or.inr rfl
      | some p =>
        obtain ⟨x, o⟩ := p
        cases o with
        | none => exact Or.inr rfl
        | some t => exact Or.inl ⟨_, rfl⟩
    · exact Or.inl ⟨_, rfl⟩

theorem fixLoop_cases (n : ℕ) (st : List Param × List Text) :
    (∃ r, fixLoop n st = .ok r) ∨ fixLoop n st = .error .indexError := by
  induction n generalizing st with
  | zero => exact Or.inl ⟨_, rfl⟩
  | succ n ih =>
    rw [fixLoop]
    rcases fixAt_cases n st with ⟨r, h⟩ | h
    · rw [h]; exact ih r
    · rw [h]; exact Or.inr rfl

theorem fixDups_cases (ps : List Param) : (∃ r, fixDups ps = .ok r) ∨ fixDups ps = .error .indexError := by
  unfold fixDups
  split_ifs
  · exact fixLoop_cases _ _
  · exact Or.inl ⟨_, rfl⟩

/-- The parameters of the definition can be renamed apart. -/
def Fixable (d : List DefPart) : Prop := ∃ r, fixDups (params d) = .ok r

theorem not_fixable {d : List DefPart} (h : fixDups (params d) = .error .indexError) : ¬ Fixable d := by
  rintro ⟨r, hr⟩
  rw [h] at hr
  cases hr

/-- Either everything in a set of definitions can be renamed and the text exists, or not. -/
def EmitCases {α : Type} (r : Except Err α) (P : Stmt → Prop) : Prop :=
  ((∃ t, r = .ok t) ∧ ∀ d b, P (.function d b) → Fixable d) ∨ (r = .error .indexError ∧ ∃ d b, P (.function d b) ∧ ¬ Fixable d)

theorem emitCases_leaf {α : Type} {t : α} {P : Stmt → Prop} (h : ∀ d b, ¬ P (.function d b)) : EmitCases (.ok t) P :=
  Or.inl ⟨⟨t, rfl⟩, fun d b hp => absurd hp (h d b)⟩

theorem emitCases_map {α β : Type} {x : Except Err α} {f : α → β} {P Q : Stmt → Prop} (hx : EmitCases x P)
    (h : ∀ d b, P (.function d b) ↔ Q (.function d b)) : EmitCases (x >>= fun a => .ok (f a)) Q := by
  rcases hx with ⟨⟨a, rfl⟩, hp⟩ | ⟨rfl, d, b, hp, hf⟩
  · exact Or.inl ⟨⟨f a, rfl⟩, fun d b hq => hp d b ((h d b).2 hq)⟩
  · exact Or.inr ⟨rfl, d, b, (h d b).1 hp, hf⟩

theorem emitCases_map2 {α β γ : Type} {x : Except Err α} {y : Except Err β} {f : α → β → γ} {P Q R : Stmt → Prop}
    (hx : EmitCases x P) (hy : EmitCases y Q) (h : ∀ d b, R (.function d b) ↔ P (.function d b) ∨ Q (.function d b)) :
    EmitCases (x >>= fun a => y >>= fun b => .ok (f a b)) R := by
  rcases hx with ⟨⟨a, rfl⟩, hp⟩ | ⟨rfl, d, b, hp, hf⟩
  · rcases hy with ⟨⟨a', rfl⟩, hq⟩ | ⟨rfl, d, b, hq, hf⟩
    · exact Or.inl ⟨⟨f a a', rfl⟩, fun d b hr => ((h d b).1 hr).elim (hp d b) (hq d b)⟩
    · exact Or.inr ⟨rfl, d, b, (h d b).2 (Or.inr hq), hf⟩
  · exact Or.inr ⟨rfl, d, b, (h d b).2 (Or.inl hp), hf⟩

mutual

theorem stmt_emitCases (fl : Flags) : ∀ s : Stmt, EmitCases (s.emit fl) (InStmt · s)
  | .function d body => by
    rw [Stmt.emit]
    have hb := block_emitCases fl body
    rcases fixDups_cases (params d) with ⟨r, hr⟩ | hr
    · rw [hr]
      rcases hb with ⟨⟨a, ha⟩, hp⟩ | ⟨ha, d', b', hp, hf⟩
      · refine Or.inl ⟨?_, ?_⟩
        · rw [ha]; exact ⟨_, rfl⟩
        · intro d' b' h
          rcases inStmt_function.1 h with h | h
          · cases h; exact ⟨r, hr⟩
          · exact hp d' b' h
      · refine Or.inr ⟨by rw [ha]; rfl, d', b', inStmt_function.2 (Or.inr hp), hf⟩
    · rw [hr]
      exact Or.inr ⟨rfl, d, body, inStmt_function.2 (Or.inl rfl), not_fixable hr⟩
  | .cond c body rest => by
    rw [Stmt.emit]
    refine emitCases_map2 (block_emitCases fl body) (else_emitCases fl rest) fun d b => ?_
    rw [inStmt_cond]
    constructor
    · rintro (h | h)
      · cases h
      · exact h
    · exact Or.inr
  | .loop x e body => by
    rw [Stmt.emit]
    refine emitCases_map (block_emitCases fl body) fun d b => ?_
    rw [inStmt_loop]
    constructor
    · exact Or.inr
    · rintro (h | h)
      · cases h
      · exact h
  | .output e => by
    rw [Stmt.emit]
    exact emitCases_leaf (by simp [inStmt_leaf])
  | .outputNamed e n => by
    rw [Stmt.emit]
    exact emitCases_leaf (by simp [inStmt_leaf])
  | .set n e => by
    rw [Stmt.emit]
    exact emitCases_leaf (by simp [inStmt_leaf])
  | .result e => by
    rw [Stmt.emit]
    exact emitCases_leaf (by simp [inStmt_leaf])
  | .assign x e => by
    rw [Stmt.emit]
    exact emitCases_leaf (by simp [inStmt_leaf])

theorem block_emitCases (fl : Flags) : ∀ b : Block, EmitCases (b.emit fl) (StmtIn · b)
  | .nil => by
    rw [Block.emit]
    exact emitCases_leaf fun d b h => not_stmtIn_nil h
  | .cons s b => by
    rw [Block.emit]
    exact emitCases_map2 (stmt_emitCases fl s) (block_emitCases fl b) fun d b' => stmtIn_cons (t := s)

theorem else_emitCases (fl : Flags) : ∀ r : Else, EmitCases (r.emit fl) (StmtInElse · r)
  | .done => by
    rw [Else.emit]
    exact emitCases_leaf fun d b h => by cases h
  | .else_ body => by
    rw [Else.emit]
    refine emitCases_map (block_emitCases fl body) fun d b => ?_
    constructor
    · exact .else_
    · intro h; cases h with | else_ h => exact h
  | .elif c body rest => by
    rw [Else.emit]
    refine emitCases_map2 (block_emitCases fl body) (else_emitCases fl rest) fun d b => ?_
    constructor
    · intro h
      cases h with
      | elif h => exact Or.inl h
      | rest h => exact Or.inr h
    · rintro (h | h)
      · exact .elif h
      · exact .rest h

end

/-- Renaming, from left to right. -/
def renamed (seen : List Text) (i : ℕ) : List Param → List Param
  | [] => []
  | p :: ps => (if p.name ∈ seen then ⟨dummy i, p.type⟩ else p) :: renamed (p.name :: seen) (i + 1) ps

theorem renamed_append (seen : List Text) (i : ℕ) (a : List Param) (p : Param) :
    renamed seen i (a ++ [p]) = renamed seen i a ++
      [if p.name ∈ seen ∨ p.name ∈ a.map Param.name then ⟨dummy (i + a.length), p.type⟩ else p] := by
  induction a generalizing seen i with
  | nil => simp [renamed]
  | cons q a ih =>
    rw [List.cons_append, renamed, ih, renamed, List.cons_append]
    congr 3
    have hiff : (p.name ∈ q.name :: seen ∨ p.name ∈ a.map Param.name) ↔
        (p.name ∈ seen ∨ p.name ∈ (q :: a).map Param.name) := by
      simp only [List.mem_cons, List.map_cons]
      tauto
    rw [List.length_cons, show i + 1 + a.length = i + (a.length + 1) by omega]
    by_cases h : p.name ∈ q.name :: seen ∨ p.name ∈ a.map Param.name
    · rw [if_pos h, if_pos (hiff.1 h)]
    · rw [if_neg h, if_neg (fun h' => h (hiff.2 h'))]

/-- A parameter that repeats an earlier name has a type. -/
def RepeatsTyped (ps : List Param) : Prop := ∀ a p b, ps = a ++ p :: b → p.name ∈ a.map Param.name → p.type ≠ none

/-- Names of parameters as the lexer gives them. -/
def ParamsOK (ps : List Param) : Prop := ∀ p ∈ ps, VarName p.name

theorem dummy_ne {n : Text} (h : VarName n) (i : ℕ) : n ≠ dummy i := by
  rintro rfl
  exact absurd (h.2 'd' (by simp [dummy])) (by decide)

theorem dummy_inj {i j : ℕ} (h : dummy i = dummy j) : i = j := by
  have := List.append_cancel_left h
  exact Nat.repr_injective (String.toList_inj.1 this)

theorem fixAt_step (a g : List Param) (p : Param) (ha : ParamsOK (a ++ [p]))
    (hg : ∀ q ∈ g, q.name ∉ (a ++ [p]).map Param.name) :
    fixAt a.length (a ++ [p] ++ g, (a ++ [p] ++ g).map Param.name) =
      if p.name ∈ a.map Param.name then
        match p.type with
        | some t => .ok (a ++ ⟨dummy a.length, some t⟩ :: g, (a ++ ⟨dummy a.length, some t⟩ :: g).map Param.name)
        | none => .error .indexError
      else .ok (a ++ p :: g, (a ++ p :: g).map Param.name) := by
  have e : a ++ [p] ++ g = a ++ p :: g := by simp
  rw [e]
  have h1 : ((a ++ p :: g).map Param.name)[a.length]? = some p.name := by simp
  have h2 : (a ++ p :: g)[a.length]? = some p := by simp
  have hng : List.count p.name (g.map Param.name) = 0 := by
    rw [List.count_eq_zero]
    intro h
    obtain ⟨q, hq, h⟩ := List.mem_map.1 h
    exact hg q hq (by rw [h]; simp)
  have hc : ((a ++ p :: g).map Param.name).count p.name = (a.map Param.name).count p.name + 1 := by
    rw [List.map_append, List.count_append, List.map_cons, List.count_cons_self, hng]
  unfold fixAt
  simp only [h1, h2, hc]
  by_cases hm : p.name ∈ a.map Param.name
  · have : (a.map Param.name).count p.name + 1 > 1 := by
      have := List.count_pos_iff.2 hm
      omega
    rw [if_pos this, if_pos hm]
    obtain ⟨n, o⟩ := p
    cases o with
    | none => rfl
    | some t => simp
  · have : ¬ (a.map Param.name).count p.name + 1 > 1 := by
      rw [List.count_eq_zero.2 hm]
      omega
    rw [if_neg this, if_neg hm]

theorem fixLoop_ok (a g : List Param) (ha : ParamsOK a) (hg : ∀ q ∈ g, q.name ∉ a.map Param.name) :
    (RepeatsTyped a → fixLoop a.length (a ++ g, (a ++ g).map Param.name) =
        .ok (renamed [] 0 a ++ g, (renamed [] 0 a ++ g).map Param.name)) ∧
      (¬ RepeatsTyped a → fixLoop a.length (a ++ g, (a ++ g).map Param.name) = .error .indexError) := by
  induction a using List.reverseRecOn generalizing g with
  | nil =>
    refine ⟨fun _ => rfl, fun h => absurd ?_ h⟩
    intro a p b h
    exact absurd h (by simp)
  | append_singleton a p ih =>
    rw [List.length_append, List.length_singleton, fixLoop, fixAt_step a g p ha hg]
    have ha' : ParamsOK a := fun q hq => ha q (List.mem_append_left _ hq)
    have hp : VarName p.name := ha p (by simp)
    have hrt : RepeatsTyped (a ++ [p]) ↔ RepeatsTyped a ∧ (p.name ∈ a.map Param.name → p.type ≠ none) := by
      constructor
      · intro h
        refine ⟨fun x q y hx => h x q (y ++ [p]) (by rw [hx]; simp), h a p [] rfl⟩
      · rintro ⟨h1, h2⟩ x q y hx
        rcases List.eq_nil_or_concat y with rfl | ⟨y, z, rfl⟩
        · obtain ⟨rfl, hq⟩ := List.append_inj' hx rfl
          cases hq
          exact h2
        · rw [List.concat_eq_append, ← List.cons_append, ← List.append_assoc] at hx
          obtain ⟨rfl, _⟩ := List.append_inj' hx rfl
          exact h1 x q y rfl
    rw [hrt, renamed_append]
    by_cases hm : p.name ∈ a.map Param.name
    · rw [if_pos hm, if_pos (Or.inr hm)]
      obtain ⟨n, o⟩ := p
      cases o with
      | none => exact ⟨fun h => absurd rfl (h.2 hm), fun _ => rfl⟩
      | some t =>
        have := ih (⟨dummy a.length, some t⟩ :: g) ha' (by
          intro q hq
          rcases List.mem_cons.1 hq with rfl | hq
          · intro h
            obtain ⟨q, hq, h⟩ := List.mem_map.1 h
            exact dummy_ne (ha' q hq) _ h
          · intro h
            exact hg q hq (by rw [List.map_append]; exact List.mem_append_left _ h))
        refine ⟨fun h => ?_, fun h => ?_⟩
        · simp only [bind, Except.bind]
          rw [this.1 h.1]
          simp
        · exact this.2 fun h' => h ⟨h', fun _ => by simp⟩
    · rw [if_neg hm, if_neg (by simpa using hm)]
      have := ih (p :: g) ha' (by
        intro q hq
        rcases List.mem_cons.1 hq with rfl | hq
        · exact hm
        · intro h
          exact hg q hq (by rw [List.map_append]; exact List.mem_append_left _ h))
      refine ⟨fun h => ?_, fun h => ?_⟩
      · simp only [bind, Except.bind]
        rw [this.1 h.1]
        simp
      · exact this.2 fun h' => h ⟨h', fun h => absurd h hm⟩

theorem renamed_nodup_names (seen : List Text) (i : ℕ) (ps : List Param) (hn : (ps.map Param.name).Nodup)
    (hs : ∀ p ∈ ps, p.name ∉ seen) : renamed seen i ps = ps := by
  induction ps generalizing seen i with
  | nil => rfl
  | cons p ps ih =>
    rw [List.map_cons, List.nodup_cons] at hn
    rw [renamed, if_neg (hs p List.mem_cons_self), ih _ _ hn.2]
    intro q hq
    rw [List.mem_cons, not_or]
    refine ⟨?_, hs q (List.mem_cons_of_mem _ hq)⟩
    intro h
    exact hn.1 (h ▸ List.mem_map_of_mem hq)

theorem hasDups_iff (l : List Text) : hasDups l = true ↔ ¬ l.Nodup := by
  unfold hasDups
  rw [bne_iff_ne, ne_eq, not_iff_not]
  constructor
  · intro h
    rw [← List.dedup_eq_self]
    exact (List.dedup_sublist l).eq_of_length h.symm
  · intro h
    rw [List.dedup_eq_self.2 h]

theorem repeatsTyped_of_nodup {ps : List Param} (h : (ps.map Param.name).Nodup) : RepeatsTyped ps := by
  rintro a p b rfl hm
  rw [List.map_append, List.map_cons, List.nodup_append] at h
  exact absurd rfl (h.2.2 _ hm _ List.mem_cons_self)

theorem fixDups_ok (ps : List Param) (hp : ParamsOK ps) :
    (RepeatsTyped ps → fixDups ps = .ok (renamed [] 0 ps, (renamed [] 0 ps).map Param.name)) ∧
      (¬ RepeatsTyped ps → fixDups ps = .error .indexError) := by
  unfold fixDups
  by_cases hd : (ps.map Param.name).Nodup
  · rw [if_neg (by rw [hasDups_iff]; exact fun h => h hd)]
    rw [renamed_nodup_names [] 0 ps hd (by simp)]
    exact ⟨fun _ => rfl, fun h => absurd (repeatsTyped_of_nodup hd) h⟩
  · rw [if_pos ((hasDups_iff _).2 hd)]
    have := fixLoop_ok ps [] hp (by simp)
    simpa using this

theorem renamed_getElem (seen : List Text) (i : ℕ) (ps : List Param) (k : ℕ) (hk : k < ps.length) :
    (renamed seen i ps)[k]? = some (if ps[k].name ∈ seen ∨ ps[k].name ∈ (ps.take k).map Param.name then ⟨dummy (i + k), ps[k].type⟩
      else ps[k]) := by
  induction ps generalizing seen i k with
  | nil => simp at hk
  | cons p ps ih =>
    cases k with
    | zero => simp [renamed]
    | succ k =>
      rw [renamed, List.getElem?_cons_succ, ih]
      swap
      · simpa using hk
      simp only [List.getElem_cons_succ, List.take_succ_cons, List.map_cons, List.mem_cons]
      rw [show i + 1 + k = i + (k + 1) by omega]
      congr 1
      refine if_congr ?_ rfl rfl
      tauto

theorem renamed_length (seen : List Text) (i : ℕ) (ps : List Param) : (renamed seen i ps).length = ps.length := by
  induction ps generalizing seen i with
  | nil => rfl
  | cons p ps ih => rw [renamed, List.length_cons, ih, List.length_cons]

theorem renamed_names_nodup (ps : List Param) (seen : List Text) (i : ℕ) (hp : ParamsOK ps) :
    ((renamed seen i ps).map Param.name).Nodup ∧
      ∀ n ∈ (renamed seen i ps).map Param.name, (∃ j, i ≤ j ∧ n = dummy j) ∨ (VarName n ∧ n ∉ seen) := by
  induction ps generalizing seen i with
  | nil => exact ⟨List.nodup_nil, fun n hn => absurd hn (by simp [renamed])⟩
  | cons p ps ih =>
    have hv := hp p List.mem_cons_self
    obtain ⟨h1, h2⟩ := ih (p.name :: seen) (i + 1) fun q hq => hp q (List.mem_cons_of_mem _ hq)
    rw [renamed, List.map_cons, List.nodup_cons]
    refine ⟨⟨?_, h1⟩, ?_⟩
    · intro h
      rcases h2 _ h with ⟨j, hj, e⟩ | ⟨hv', hn⟩
      · split_ifs at e with hs
        · have := dummy_inj e; omega
        · exact dummy_ne hv _ e
      · split_ifs at hn hv' with hs
        · exact dummy_ne hv' i rfl
        · exact hn List.mem_cons_self
    · intro n hn
      rcases List.mem_cons.1 hn with rfl | hn
      · split_ifs with hs
        · exact Or.inl ⟨i, Nat.le_refl _, rfl⟩
        · exact Or.inr ⟨hv, hs⟩
      · rcases h2 n hn with ⟨j, hj, e⟩ | ⟨hv', hn⟩
        · exact Or.inl ⟨j, by omega, e⟩
        · exact Or.inr ⟨hv', fun h => hn (List.mem_cons_of_mem _ h)⟩

end PythonDice.Compiler
