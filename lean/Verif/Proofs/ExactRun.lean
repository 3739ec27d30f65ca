import Verif.Proofs.NaiveRun

/-! Programs that neither warn nor overflow, because the laws that come up have small denominators. -/

namespace PythonDice
open Spec
open Spec.Naive (Law Val Config ExactVal ExactE ExactElems ExactArgs ExactS ExactB ExactElse ExactLoop ExactSub ExactCall ExactUser ExactProgram)
open Compiler (Expr Elems CallParts Stmt Block Else DefPart StrPart)

namespace Enum

variable {β γ : Type} {I : Settings → Prop} {c : Config}

/-! ## Computations -/

/-- Going on after a computation that may output and set. -/
theorem Safe.next {top : Bool} {m : M β} {f : β → M γ} {S : β → Prop} {P : β → List (Obj × Option PyText) → Config → Prop}
    (hI : ∀ st, Inv c st → I st) (sm : Stable I top m S) (hm : Safe (Inv c) m) (hT : Trip c m P)
    (hf : ∀ x new c', S x → P x new c' → Safe (Inv c') (f x)) : Safe (Inv c) (m >>= f) := by
  intro w hw hi h0
  obtain ⟨h1, h2⟩ := hm w hw hi h0
  obtain ⟨s1, _, _, s4⟩ := sm w hw (hI _ hi)
  have hT' := hT w hw hi h1
  rw [M.bind_apply]
  rcases hr : m w with ⟨r, w'⟩
  rw [hr] at h1 h2 s1 s4 hT'
  rcases hT' with he | ⟨x, new, c', hx, _, i, hp⟩
  · exact absurd he h2
  · simp only at hx
    subst hx
    exact hf x new c' (s4 x rfl).2 hp w' s1 i h1

theorem safe_depthCall {body : M (Option Obj)} (h : 0 < c.left → Safe (Inv (deeper c)) body) : Safe (Inv c) (depthCall body) := by
  intro w hw hi h0
  have hd := hi.left
  rw [depthCall_eq]
  split_ifs with h1 h2
  · exact ⟨h0, fun h => by cases h⟩
  · exact ⟨h0, fun h => by cases h⟩
  · obtain ⟨g1, g2⟩ := h (by omega) _ (hw.settings { w.settings with currDepth := w.settings.currDepth + 1 })
      ⟨hi.depth, by simp only [deeper]; omega, hi.order, hi.explode⟩ h0
    rcases hb : body { w with settings := { w.settings with currDepth := w.settings.currDepth + 1 } } with ⟨r, w'⟩
    rw [hb] at g1 g2
    cases r with
    | error e => exact ⟨g1, fun h => by cases h; exact g2 rfl⟩
    | ok r => exact ⟨g1, fun h => by cases h⟩

/-! ## Expressions -/

/-- Calls that neither warn nor overflow. -/
def CallSafe (c : Config) (call : RunCall) (sub : ExactSub) (call' : Naive.Call) : Prop :=
  ∀ fr fr' fns fns' d body args args' x, FrameRep fr fr' → FnsOk fns → FnsRep fns fns' → Naive.plainB false body = true →
    List.Forall₂ Rep args args' → call'.user fr' fns' d body args' = some x → sub fr' fns' d body args' →
    Safe (Inv c) (call fr fns d body args)

section
variable {R : Rules} {call : RunCall} {call' : Naive.Call} {sub : ExactSub}

mutual

theorem safeE (hc : CallStable (Inv c) call) (hr : CallRep c call call') (hs : CallSafe c call sub call') {fns : Fns} {fns' : Naive.Funs}
    (hF : FnsOk fns) (hR : FnsRep fns fns') {fr : Frame} {fr' : Naive.Scope} (hfr : FrameRep fr fr') (ex : Expr) {x : Val}
    (hx : Naive.value R call' fns' fr' ex = some x) (hE : ExactE R call' sub fns' fr' ex) : Safe (Inv c) (runE R call fns fr ex) :=
  match ex with
  | .num n => safe_pure _
  | .dec _ _ => by cases hx
  | .var x => by
    obtain ⟨o, ho, hv⟩ := hfr.find hx
    unfold runE getVar
    rw [ho]
    exact safe_pure _
  | .str _ => by cases hx
  | .group ex => safeE hc hr hs hF hR hfr ex hx hE
  | .bin op l r => by
    obtain ⟨hl, hr', hE⟩ := hE
    replace hE := hE x hx
    simp only [Naive.value, Option.bind_eq_bind, Option.bind_eq_some_iff] at hx
    obtain ⟨u, hu, v, hv, hx⟩ := hx
    refine Safe.bind (safeE hc hr hs hF hR hfr l hu hl) (repE hc hr hF hR hfr l hu).1 fun a ha =>
      Safe.bind (safeE hc hr hs hF hR hfr r hv hr') (repE hc hr hF hR hfr r hv).1 fun b hb => ?_
    unfold Naive.operate at hx
    by_cases hop : op = .at_
    · rw [if_pos hop] at hx
      subst hop
      rw [hr.1] at hx
      exact safe_at (fun _ h => h.order) _ ha hb hx hE
    · rw [if_neg hop] at hx
      split at hx
      · rename_i hall
        cases hx
        refine safe_runBin _ hop ha hb (fun x hx y hy => ?_) hE
        rw [List.all_eq_true] at hall
        have h1 := hall x hx
        rw [List.all_eq_true] at h1
        exact h1 y hy
      · cases hx
  | .ndm l r => by
    obtain ⟨hl, hr', hE⟩ := hE
    simp only [Naive.value, Option.bind_eq_bind, Option.bind_eq_some_iff, Option.some.injEq] at hx
    obtain ⟨u, hu, v, hv, rfl⟩ := hx
    exact Safe.bind (safeE hc hr hs hF hR hfr l hu hl) (repE hc hr hF hR hfr l hu).1 fun a ha =>
      Safe.bind (safeE hc hr hs hF hR hfr r hv hr') (repE hc hr hF hR hfr r hv).1 fun b hb => safe_roll ha hb (hE u v hu hv)
  | .dm r => by
    simp only [Naive.value, Option.bind_eq_bind, Option.bind_eq_some_iff, Option.some.injEq] at hx
    obtain ⟨v, hv, rfl⟩ := hx
    refine Safe.bind (safeE hc hr hs hF hR hfr r hv hE) (repE hc hr hF hR hfr r hv).1 fun b hb =>
      safe_roll (n := .num 1) (u := .num 1) rfl hb fun b _ => ⟨fun k hk h => ?_, fun l p h => by cases h⟩
    rw [Naive.amounts, List.mem_singleton] at hk
    subst hk
    exact absurd h (by decide)
  | .unary op ex => by
    simp only [Naive.value, Option.bind_eq_bind, Option.bind_eq_some_iff] at hx
    obtain ⟨v, hv, hx⟩ := hx
    exact Safe.then (safeE hc hr hs hF hR hfr ex hv hE) fun b => plain_unary _ _ _
  | .hash ex => by
    simp only [Naive.value, Option.bind_eq_bind, Option.bind_eq_some_iff] at hx
    obtain ⟨v, hv, hx⟩ := hx
    exact Safe.then (safeE hc hr hs hF hR hfr ex hv hE) fun b => plain_hash _ _
  | .seq es => by
    simp only [Naive.value, Option.bind_eq_bind, Option.bind_eq_some_iff, Option.some.injEq] at hx
    obtain ⟨vs, hv, rfl⟩ := hx
    exact Safe.then (safeElems hc hr hs hF hR hfr es hv hE) fun os => Plain.pure _
  | .call cs => by
    obtain ⟨hA, hE⟩ := hE
    simp only [Naive.value, Option.bind_eq_bind, Option.bind_eq_some_iff] at hx
    obtain ⟨f', hf', args', ha', hx⟩ := hx
    obtain ⟨f, hf, hff⟩ := lookup_rep (P := fun a b => ∀ c : Config, FnRep (Inv c) c.table a b ∧ FnSafe (Inv c) c.table a b) hR hf'
    have hE := hE f' args' hf' ha'
    have e1 : runE R call fns fr (.call cs) = runArgs R call fns fr cs >>= fun args => applyFn call fns fr f args := by
      unfold runE getFn
      rw [hf]
      rfl
    rw [e1]
    refine Safe.bind (safeArgs hc hr hs hF hR hfr cs ha' hA) (repArgs hc hr hF hR hfr cs ha').1 fun args ha => ?_
    match f, f', hff c with
    | .lib g, .lib g', h => exact h.2 _ _ _ ha (by rw [← hr.1]; exact hx) (by rw [← hr.1]; exact hE)
    | .user d b, .user d' b', ⟨⟨h1, h2, h3⟩, _⟩ =>
      subst h1 h2
      exact hs _ _ _ _ _ _ _ _ _ hfr hF hR h3 ha hx hE

theorem safeElems (hc : CallStable (Inv c) call) (hr : CallRep c call call') (hs : CallSafe c call sub call') {fns : Fns} {fns' : Naive.Funs}
    (hF : FnsOk fns) (hR : FnsRep fns fns') {fr : Frame} {fr' : Naive.Scope} (hfr : FrameRep fr fr') (es : Elems) {x : List Val}
    (hx : Naive.values R call' fns' fr' es = some x) (hE : ExactElems R call' sub fns' fr' es) : Safe (Inv c) (runElems R call fns fr es) :=
  match es with
  | .nil => safe_pure _
  | .expr ex es => by
    simp only [Naive.values, Option.bind_eq_bind, Option.bind_eq_some_iff, Option.some.injEq] at hx
    obtain ⟨u, hu, vs, hvs, rfl⟩ := hx
    exact Safe.bind (safeE hc hr hs hF hR hfr ex hu hE.1) (repE hc hr hF hR hfr ex hu).1 fun a _ =>
      Safe.then (safeElems hc hr hs hF hR hfr es hvs hE.2) fun _ => Plain.pure _
  | .range l r es => by
    simp only [Naive.values, Option.bind_eq_bind, Option.bind_eq_some_iff, Option.some.injEq] at hx
    obtain ⟨u, hu, v, hv, s, hs', vs, hvs, rfl⟩ := hx
    exact Safe.bind (safeE hc hr hs hF hR hfr l hu hE.1) (repE hc hr hF hR hfr l hu).1 fun a ha =>
      Safe.bind (safeE hc hr hs hF hR hfr r hv hE.2.1) (repE hc hr hF hR hfr r hv).1 fun b hb =>
        Safe.bind (plain_range a b).safe (full_range ha hb hs').1 fun s _ =>
          Safe.then (safeElems hc hr hs hF hR hfr es hvs hE.2.2) fun _ => Plain.pure _

theorem safeArgs (hc : CallStable (Inv c) call) (hr : CallRep c call call') (hs : CallSafe c call sub call') {fns : Fns} {fns' : Naive.Funs}
    (hF : FnsOk fns) (hR : FnsRep fns fns') {fr : Frame} {fr' : Naive.Scope} (hfr : FrameRep fr fr') (cs : CallParts) {x : List Val}
    (hx : Naive.arguments R call' fns' fr' cs = some x) (hE : ExactArgs R call' sub fns' fr' cs) : Safe (Inv c) (runArgs R call fns fr cs) :=
  match cs with
  | .nil => safe_pure _
  | .word _ cs => safeArgs hc hr hs hF hR hfr cs hx hE
  | .arg ex cs => by
    simp only [Naive.arguments, Option.bind_eq_bind, Option.bind_eq_some_iff, Option.some.injEq] at hx
    obtain ⟨u, hu, vs, hvs, rfl⟩ := hx
    exact Safe.bind (safeE hc hr hs hF hR hfr ex hu hE.1) (repE hc hr hF hR hfr ex hu).1 fun a _ =>
      Safe.then (safeArgs hc hr hs hF hR hfr cs hvs hE.2) fun _ => Plain.pure _

end

/-! ## Statements -/

/-- With calls deep enough, a statement neither warns nor overflows. -/
def SafeEnds (p : Naive.Point) (m : ℕ → State → M (State × Option Obj)) : Prop :=
  ∃ N, ∀ n, N ≤ n → ∀ s, FnsOk s.fns → FnsRep s.fns p.fns → FrameRep s.fr p.fr → Safe (Inv p.conf) (m n s)

variable {C : Config → Prop} {family : ℕ → RunCall} {calls : Config → Naive.Call} {subs : Config → ExactSub}

theorem safe_next {top : Bool} {m f : ℕ → State → M (State × Option Obj)} {p : Naive.Point} {q : Naive.Point × Option Val}
    (hI : ∀ st, Inv p.conf st → I st) (sm : ∀ n s, FnsOk s.fns → Stable I top (m n s) fun r => FnsOk r.1.fns) (hm : Ends C p q m)
    (hs : SafeEnds p m) (hf : q.2 = none → SafeEnds q.1 f) : SafeEnds p fun n s => m n s >>= fun r => match r.2 with
      | some v => pure (r.1, some v)
      | none => f n r.1 := by
  obtain ⟨_, N, hN⟩ := hm
  obtain ⟨N', hN'⟩ := hs
  have h2 : ∃ K, q.2 = none → ∀ n, K ≤ n → ∀ s, FnsOk s.fns → FnsRep s.fns q.1.fns → FrameRep s.fr q.1.fr → Safe (Inv q.1.conf) (f n s) := by
    by_cases h : q.2 = none
    · exact (hf h).imp fun _ h _ => h
    · exact ⟨0, fun e => absurd e h⟩
  obtain ⟨K, hK⟩ := h2
  refine ⟨max N (max N' K), fun n hn s hs hR hfr => ?_⟩
  have hn1 : N ≤ n := le_trans (le_max_left _ _) hn
  have hn2 : N' ≤ n := le_trans (le_trans (le_max_left _ _) (le_max_right _ _)) hn
  have hn3 : K ≤ n := le_trans (le_trans (le_max_right _ _) (le_max_right _ _)) hn
  refine Safe.next hI (sm n s hs) (hN' n hn2 s hs hR hfr) (hN n hn1 s hs hR hfr) ?_
  rintro ⟨s', o⟩ new c' hs' hg
  obtain ⟨p', v⟩ := q
  obtain ⟨hc', _⟩ := hg.2.2.2.1
  subst hc'
  cases o with
  | some o => exact safe_pure _
  | none =>
    cases v with
    | some v => exact absurd hg.2.2.1 id
    | none => exact hK rfl n hn3 s' hs' hg.1 hg.2.1

theorem safe_loop {top : Bool} {f : ℕ → State → ℤ → M (State × Option Obj)} {F : Naive.Point → ℤ → Option (Naive.Point × Option Val)}
    {P : Naive.Point → ℤ → Prop}
    (hI : ∀ c, C c → ∀ st, Inv c st → I st) (sf : ∀ n s k, FnsOk s.fns → Stable I top (f n s k) fun r => FnsOk r.1.fns)
    (hf : ∀ k p q, C p.conf → F p k = some q → Ends C p q fun n s => f n s k)
    (hs : ∀ k p q, C p.conf → F p k = some q → P p k → SafeEnds p fun n s => f n s k)
    (ns : List ℤ) {p : Naive.Point} {q : Naive.Point × Option Val} (hC : C p.conf) (hq : Naive.loop F ns p = some q) (hE : ExactLoop F P ns p) :
    SafeEnds p fun n s => runLoop (f n) ns s := by
  induction ns generalizing p q with
  | nil => exact ⟨0, fun n _ s hs hR hfr => safe_pure _⟩
  | cons k ns ih =>
    simp only [Naive.loop, Option.bind_eq_bind, Option.bind_eq_some_iff] at hq
    obtain ⟨q1, h1, hq⟩ := hq
    refine safe_next (m := fun n s => f n s k) (f := fun n s => runLoop (f n) ns s) (hI _ hC) (fun n s hs => sf n s k hs) (hf k p q1 hC h1)
      (hs k p q1 hC h1 hE.1) fun h2 => ?_
    obtain ⟨p1, v⟩ := q1
    simp only at h2
    subst h2
    exact ih (hf k p _ hC h1).1 hq (hE.2 p1 h1)

theorem plain_emit (o : Obj) (n : Option PyText) : Plain (emitOutput o n) := fun _ => ⟨rfl, fun h => by cases h⟩

theorem checkedValue_ne (n : String) (v : PyAny) : checkedValue n v ≠ .error .overflow := by
  unfold checkedValue boolValue
  repeat' split
  all_goals (intro h; cases h)

theorem plain_setSetting (n : List Char) (v : PyAny) : Plain (setSetting n v) := by
  intro w
  unfold setSetting
  split
  · rename_i e h
    exact ⟨rfl, fun h' => by cases h'; exact checkedValue_ne _ _ h⟩
  · split
    · exact ⟨rfl, fun h => by cases h⟩
    · exact ⟨rfl, fun h => by cases h⟩

theorem plain_setStr (n t : PyText) : Plain (settingsSetStr n t) := by
  unfold settingsSetStr
  split
  · exact plain_setSetting _ _
  · exact Plain.throw fun h => by cases h

theorem plain_setObj (n : PyText) (o : Obj) : Plain (settingsSetObj n o) := by
  unfold settingsSetObj
  split
  · exact plain_setSetting _ _
  · exact Plain.throw fun h => by cases h

theorem plain_textOf {fr : Frame} {fr' : Naive.Scope} (hfr : FrameRep fr fr') {ps : List StrPart} {u : Naive.Text}
    (h : Naive.spell fr' ps = some u) : Plain (textOf R fr ps) := by
  induction ps generalizing u with
  | nil => exact Plain.pure _
  | cons p ps ih =>
    cases p with
    | text s =>
      simp only [Naive.spell, Option.map_eq_some_iff] at h
      obtain ⟨u, hu, rfl⟩ := h
      exact (ih hu).bind fun _ => Plain.pure _
    | var x =>
      simp only [Naive.spell, Option.bind_eq_bind, Option.bind_eq_some_iff, Option.some.injEq] at h
      obtain ⟨v, hv, u, hu, rfl⟩ := h
      obtain ⟨o, ho, hr⟩ := hfr.find hv
      have e : textOf R fr (.var x :: ps) = textOf R fr ps >>= fun t => pure (.inr o :: t) := by
        rw [textOf, getVar, ho]
        rfl
      rw [e]
      exact (ih hu).bind fun _ => Plain.pure _

/-- What is known about calls: see `Ctx`. -/
def SafeCtx (C : Config → Prop) (call : ℕ → RunCall) (sub : Config → ExactSub) (call' : Config → Naive.Call) : Prop :=
  ∀ c, C c → ∃ N, ∀ n, N ≤ n → CallSafe c (call n) (sub c) (call' c)

/-- An expression in a statement. -/
theorem safe_first {top : Bool} (hx : Ctx top I C family calls) (hy : SafeCtx C family subs calls) (ex : Expr) {p : Naive.Point} (hC : C p.conf)
    {v : Val} (hv : Naive.value R (calls p.conf) p.fns p.fr ex = some v) (hE : ExactE R (calls p.conf) (subs p.conf) p.fns p.fr ex) :
    ∃ N, ∀ n, N ≤ n → ∀ s : State, FnsOk s.fns → FnsRep s.fns p.fns → FrameRep s.fr p.fr →
      Safe (Inv p.conf) (runE R (family n) s.fns s.fr ex) ∧ Triple (Inv p.conf) (runE R (family n) s.fns s.fr ex) fun o => Rep o v := by
  obtain ⟨N, hN⟩ := hx.rep _ hC
  obtain ⟨N', hN'⟩ := hy _ hC
  refine ⟨max N N', fun n hn s hs hR hfr => ?_⟩
  have h1 := hN n (le_trans (le_max_left _ _) hn)
  have h2 := hN' n (le_trans (le_max_right _ _) hn)
  exact ⟨safeE (hx.each n _ hC) h1 h2 hs hR hfr ex hv hE, (repE (hx.each n _ hC) h1 hs hR hfr ex hv).1⟩

theorem safe_if {top : Bool} (hx : Ctx top I C family calls) (hy : SafeCtx C family subs calls) (ex : Expr) {p : Naive.Point} (hC : C p.conf)
    {v : Val} (hv : Naive.value R (calls p.conf) p.fns p.fr ex = some v) (hE : ExactE R (calls p.conf) (subs p.conf) p.fns p.fr ex)
    {t : Bool} (ht : Naive.truth v = some t) {f g : ℕ → State → M (State × Option Obj)}
    (h : SafeEnds p fun n s => if t = true then f n s else g n s) : SafeEnds p fun n s => (do
      let o ← runE R (family n) s.fns s.fr ex
      let t ← truthOp o
      if t then f n s else g n s) := by
  obtain ⟨N, hN⟩ := safe_first hx hy ex hC hv hE
  obtain ⟨N', hN'⟩ := h
  refine ⟨max N N', fun n hn s hs hR hfr => ?_⟩
  obtain ⟨h1, h2⟩ := hN n (le_trans (le_max_left _ _) hn) s hs hR hfr
  refine Safe.bind h1 h2 fun o ho => Safe.bind (plain_truth o).safe (full_truth ho ht).1 fun b hb => ?_
  subst hb
  exact hN' n (le_trans (le_max_right _ _) hn) s hs hR hfr

mutual

theorem safeS {top : Bool} (hx : Ctx top I C family calls) (hy : SafeCtx C family subs calls) (st : Stmt) (hp : Naive.plainS top st = true)
    {p : Naive.Point} {q : Naive.Point × Option Val} (hC : C p.conf)
    (hq : Naive.statement R calls st p = some q) (hE : ExactS R calls subs st p) : SafeEnds p fun n s => runS R (family n) st s :=
  match st with
  | .output ex => by
    simp only [Naive.statement, Option.bind_eq_bind, Option.bind_eq_some_iff, Option.some.injEq] at hq
    obtain ⟨v, hv, rfl⟩ := hq
    obtain ⟨N, hN⟩ := safe_first hx hy ex hC hv hE
    exact ⟨N, fun n hn s hs hR hfr => Safe.then (hN n hn s hs hR hfr).1 fun o => (plain_emit _ _).bind fun _ => Plain.pure _⟩
  | .outputNamed ex name => by
    simp only [Naive.statement, Option.bind_eq_bind, Option.bind_eq_some_iff, Option.some.injEq] at hq
    obtain ⟨v, hv, u, hu, rfl⟩ := hq
    obtain ⟨N, hN⟩ := safe_first hx hy ex hC hv hE
    exact ⟨N, fun n hn s hs hR hfr => Safe.then (hN n hn s hs hR hfr).1 fun o => (plain_textOf hfr hu).bind fun t =>
      (plain_emit _ _).bind fun _ => Plain.pure _⟩
  | .set n ex => by
    have e0 : ∀ k s, runS R (family k) (.set n ex) s = runSet R (family k) s n ex >>= fun _ => pure (s, none) := by
      intro k s
      cases ex <;> rfl
    simp only [e0]
    by_cases hstr : ∃ t, ex = .str t
    · obtain ⟨t, rfl⟩ := hstr
      simp only [Naive.statement, Option.bind_eq_bind, Option.bind_eq_some_iff] at hq
      obtain ⟨name, hn, text, ht, hq⟩ := hq
      refine ⟨0, fun k _ s _ _ _ => Safe.then (Plain.safe ?_) fun _ => Plain.pure _⟩
      change Plain (textOf R s.fr n >>= fun a => textOf R s.fr t >>= fun b => settingsSetStr a b)
      rw [textOf_written R s.fr hn, textOf_written R s.fr ht]
      exact plain_setStr _ _
    · have e1 : Naive.statement R calls (.set n ex) p = (do
          let name ← Naive.written n
          let v ← Naive.value R (calls p.conf) p.fns p.fr ex
          Naive.setValue name v p) := by
        cases ex <;> first | rfl | exact absurd ⟨_, rfl⟩ hstr
      have e2 : ∀ k s, runSet R (family k) s n ex = (do
          let n ← textOf R s.fr n
          let o ← runE R (family k) s.fns s.fr ex
          settingsSetObj n o) := by
        intro k s
        cases ex <;> first | rfl | exact absurd ⟨_, rfl⟩ hstr
      rw [e1] at hq
      simp only [Option.bind_eq_bind, Option.bind_eq_some_iff] at hq
      obtain ⟨name, hn, v, hv, hq⟩ := hq
      have hE' : ExactE R (calls p.conf) (subs p.conf) p.fns p.fr ex := hE
      obtain ⟨N, hN⟩ := safe_first hx hy ex hC hv hE'
      refine ⟨N, fun k hk s hs hR hfr => Safe.then ?_ fun _ => Plain.pure _⟩
      rw [e2, textOf_written R s.fr hn]
      change Safe _ (runE R (family k) s.fns s.fr ex >>= fun o => settingsSetObj (name.map .inl) o)
      exact Safe.then (hN k hk s hs hR hfr).1 fun o => plain_setObj _ _
  | .function d body => ⟨0, fun n _ s _ _ _ => safe_pure _⟩
  | .result ex => by
    simp only [Naive.statement, Option.bind_eq_bind, Option.bind_eq_some_iff, Option.some.injEq] at hq
    obtain ⟨v, hv, rfl⟩ := hq
    obtain ⟨N, hN⟩ := safe_first hx hy ex hC hv hE
    exact ⟨N, fun n hn s hs hR hfr => Safe.then (hN n hn s hs hR hfr).1 fun o => Plain.pure _⟩
  | .cond c body rest => by
    have hp' : Naive.plainB top body = true ∧ Naive.plainE top rest = true := by simpa [Naive.plainS] using hp
    simp only [Naive.statement, Option.bind_eq_bind, Option.bind_eq_some_iff] at hq
    obtain ⟨v, hv, t, ht, hq⟩ := hq
    obtain ⟨h1, h2⟩ := hE
    have h2 := h2 v t hv ht
    refine safe_if hx hy c hC hv h1 ht ?_
    cases t
    · exact safeEl hx hy rest hp'.2 hC hq h2
    · exact safeB hx hy body hp'.1 hC hq h2
  | .loop x ex body => by
    simp only [Naive.statement, Option.bind_eq_bind, Option.bind_eq_some_iff] at hq
    obtain ⟨v, hv, ns, hns, hq⟩ := hq
    obtain ⟨h1, h2⟩ := hE
    have h2 := h2 v ns hv hns
    obtain ⟨N, hN⟩ := safe_first hx hy ex hC hv h1
    have sb : ∀ (n : ℕ) (s : State) (k : ℤ), FnsOk s.fns →
        Stable I top (runB R (family n) body { s with fr := s.fr.set x (.num k) }) fun r => FnsOk r.1.fns :=
      fun n s k hs => stableB (hx.stable n) hx.any body hp { s with fr := s.fr.set x (.num k) } hs
    obtain ⟨N', hN'⟩ := safe_loop (f := fun n s k => runB R (family n) body { s with fr := s.fr.set x (.num k) }) hx.inv sb
      (fun k p q hC h => by
        obtain ⟨hC', N, hN⟩ := repB hx body hp (p := { p with fr := p.fr.set x (.num k) }) hC h
        exact ⟨hC', N, fun n hn s hs hR hfr => hN n hn { s with fr := s.fr.set x (.num k) } hs hR (hfr.set x rfl)⟩)
      (fun k p q hC h he => by
        obtain ⟨N, hN⟩ := safeB hx hy body hp (p := { p with fr := p.fr.set x (.num k) }) hC h he
        exact ⟨N, fun n hn s hs hR hfr => hN n hn { s with fr := s.fr.set x (.num k) } hs hR (hfr.set x rfl)⟩) ns hC hq h2
    refine ⟨max N N', fun n hn s hs hR hfr => ?_⟩
    obtain ⟨g1, g2⟩ := hN n (le_trans (le_max_left _ _) hn) s hs hR hfr
    refine Safe.bind g1 g2 fun o ho => Safe.bind (plain_iter o).safe (full_iter ho hns).1 fun l hl => ?_
    subst hl
    exact hN' n (le_trans (le_max_right _ _) hn) s hs hR hfr
  | .assign x ex => by
    simp only [Naive.statement, Option.bind_eq_bind, Option.bind_eq_some_iff, Option.some.injEq] at hq
    obtain ⟨v, hv, rfl⟩ := hq
    obtain ⟨N, hN⟩ := safe_first hx hy ex hC hv hE
    exact ⟨N, fun n hn s hs hR hfr => Safe.then (hN n hn s hs hR hfr).1 fun o => Plain.pure _⟩

theorem safeB {top : Bool} (hx : Ctx top I C family calls) (hy : SafeCtx C family subs calls) (b : Block) (hp : Naive.plainB top b = true)
    {p : Naive.Point} {q : Naive.Point × Option Val} (hC : C p.conf) (hq : Naive.block R calls b p = some q) (hE : ExactB R calls subs b p) :
    SafeEnds p fun n s => runB R (family n) b s :=
  match b with
  | .nil => ⟨0, fun n _ s _ _ _ => safe_pure _⟩
  | .cons st b => by
    have hp' : Naive.plainS top st = true ∧ Naive.plainB top b = true := by simpa [Naive.plainB] using hp
    simp only [Naive.block, Option.bind_eq_bind, Option.bind_eq_some_iff] at hq
    obtain ⟨q1, h1, hq⟩ := hq
    refine safe_next (m := fun n s => runS R (family n) st s) (f := fun n s => runB R (family n) b s) (hx.inv _ hC)
      (fun n s hs => stableS (hx.stable n) hx.any st hp'.1 s hs) (repS hx st hp'.1 hC h1) (safeS hx hy st hp'.1 hC h1 hE.1) fun h2 => ?_
    obtain ⟨p1, v⟩ := q1
    simp only at h2
    subst h2
    exact safeB hx hy b hp'.2 (repS hx st hp'.1 hC h1).1 hq (hE.2 p1 h1)

theorem safeEl {top : Bool} (hx : Ctx top I C family calls) (hy : SafeCtx C family subs calls) (b : Else) (hp : Naive.plainE top b = true)
    {p : Naive.Point} {q : Naive.Point × Option Val} (hC : C p.conf) (hq : Naive.alternatives R calls b p = some q)
    (hE : ExactElse R calls subs b p) : SafeEnds p fun n s => runElse R (family n) b s :=
  match b with
  | .done => ⟨0, fun n _ s _ _ _ => safe_pure _⟩
  | .else_ b => safeB hx hy b hp hC hq hE
  | .elif c body rest => by
    have hp' : Naive.plainB top body = true ∧ Naive.plainE top rest = true := by simpa [Naive.plainE] using hp
    simp only [Naive.alternatives, Option.bind_eq_bind, Option.bind_eq_some_iff] at hq
    obtain ⟨v, hv, t, ht, hq⟩ := hq
    obtain ⟨h1, h2⟩ := hE
    have h2 := h2 v t hv ht
    refine safe_if hx hy c hC hv h1 ht ?_
    cases t
    · exact safeEl hx hy rest hp'.2 hC hq h2
    · exact safeB hx hy body hp'.1 hC hq h2

end

end

/-! ## Calls -/

theorem exactUser_left (R : Rules) (c : Config) (k : ℤ) (n : ℕ) : ExactUser R { c with left := k } n = ExactUser R c n := by
  induction n with
  | zero => rfl
  | succ n ih =>
    unfold ExactUser
    simp only [ih, callUser_left]

theorem callSafe (R : Rules) (n : ℕ) (c : Config) (hn : c.left.toNat < n) :
    CallSafe c (runCall R n) (ExactUser R c c.left.toNat) (Naive.callIn R c) := by
  induction n generalizing c with
  | zero => exact absurd hn (Nat.not_lt_zero _)
  | succ n ih =>
    intro fr fr' fns fns' d body args args' x hfr hF hR hb ha hx hE
    refine safe_depthCall fun h1 => ?_
    obtain ⟨j, hj⟩ : ∃ j, c.left.toNat = j + 1 := ⟨c.left.toNat - 1, by omega⟩
    have hj' : c.left - 1 = j := by omega
    rw [hj] at hE
    have hx0 := hx
    rw [Naive.callIn, hj] at hx
    have hd : ({ c with left := j } : Config) = deeper c := by rw [deeper, hj']
    have hcall : (fun _ : Config => Naive.callUser R c j) = fun _ => Naive.callIn R (deeper c) := by
      funext _
      rw [Naive.callIn, deeper, callUser_left R c (c.left - 1)]
      simp only [hj', Int.toNat_natCast]
    have hsub : (fun _ : Config => ExactUser R c j) = fun c' => ExactUser R (deeper c) (deeper c).left.toNat := by
      funext _
      rw [deeper, exactUser_left R c (c.left - 1)]
      simp only [hj', Int.toNat_natCast]
    have hn' : (deeper c).left.toNat < n := by simp only [deeper]; omega
    have ctx : Ctx false (Inv (deeper c)) (fun c' => c' = deeper c) (fun _ => runCall R n) fun _ => Naive.callIn R (deeper c) :=
      ⟨fun _ => callStable R n (deeper c), fun _ h _ hi => h ▸ hi, fun _ c' h => h ▸ callStable R n (deeper c),
        fun c' h => ⟨0, fun _ _ => h ▸ callRep R n (deeper c) hn'⟩, (fun h => by cases h), (fun h => by cases h)⟩
    have sctx : SafeCtx (fun c' => c' = deeper c) (fun _ => runCall R n) (fun c' => ExactUser R (deeper c) (deeper c).left.toNat)
        fun _ => Naive.callIn R (deeper c) := fun c' h => ⟨0, fun _ _ => h ▸ ih (deeper c) hn'⟩
    have hf : ∀ os vs r, List.Forall₂ Rep os vs → (do
        let r ← Naive.block R (fun _ => Naive.callUser R c j) body ⟨fns', Naive.begin' R fr' d body vs, [], { c with left := j }⟩
        some r.2) = some r → Full (Inv (deeper c)) (do
        let r ← runB R (runCall R n) body ⟨fns, enter R fr d body os⟩
        pure r.2) fun o => RepO o r := by
      intro os vs r hos hr
      simp only [Option.bind_eq_bind, Option.bind_eq_some_iff, Option.some.injEq] at hr
      obtain ⟨q, hq, rfl⟩ := hr
      rw [hd, hcall] at hq
      obtain ⟨_, N, hN⟩ := repB (R := R) ctx body hb (p := ⟨fns', Naive.begin' R fr' d body vs, [], deeper c⟩) rfl hq
      have hT := full_trip (P := fun r => RepO r.2 q.2)
        (stableB (R := R) (callStable R n (deeper c)) (top := false) (fun h => by cases h) body hb ⟨fns, enter R fr d body os⟩ hF)
        (hN N (le_refl _) ⟨fns, enter R fr d body os⟩ hF hR (hfr.enter R d body hos)) fun r new c' h => h.2.2.1
      exact Full.bind hT (fun r hr => Full.pure hr) fun _ => Triple.pure trivial
    have hs : ∀ os vs r, List.Forall₂ Rep os vs → (do
        let r ← Naive.block R (fun _ => Naive.callUser R c j) body ⟨fns', Naive.begin' R fr' d body vs, [], { c with left := j }⟩
        some r.2) = some r → ExactB R (fun _ => Naive.callUser R c j) (fun _ => ExactUser R c j) body
          ⟨fns', Naive.begin' R fr' d body vs, [], { c with left := j }⟩ → Safe (Inv (deeper c)) (do
        let r ← runB R (runCall R n) body ⟨fns, enter R fr d body os⟩
        pure r.2) := by
      intro os vs r hos hr hB
      simp only [Option.bind_eq_bind, Option.bind_eq_some_iff, Option.some.injEq] at hr
      obtain ⟨q, hq, rfl⟩ := hr
      rw [hd, hcall] at hq
      rw [hd, hcall, hsub] at hB
      obtain ⟨N, hN⟩ := safeB (R := R) ctx sctx body hb (p := ⟨fns', Naive.begin' R fr' d body vs, [], deeper c⟩) rfl hq hB
      exact Safe.then (hN N (le_refl _) ⟨fns, enter R fr d body os⟩ hF hR (hfr.enter R d body hos)) fun _ => Plain.pure _
    unfold ExactUser at hE
    simp only at hE
    have hx' : Spec.Naive.cast _ _ = some x := hx
    refine safe_castRep (zip_repA _ ha) hf hx' ?_ ?_ ?_
    · intro a1 a2 cs hcs y hy os hos
      rw [if_neg (by simpa using a1), if_pos a2] at hE
      unfold Naive.cast at hx'
      rw [if_neg (by simpa using a1), if_pos a2, hcs] at hx'
      simp only [Option.bind_eq_bind, Option.bind_some, Option.bind_eq_some_iff] at hx'
      obtain ⟨rs, hrs, _⟩ := hx'
      exact hs os y.1 _ hos ((callAll_some hrs).2 _ (List.mem_map_of_mem hy)) (hE.1 cs hcs y hy)
    · intro a1 a2 os hos
      rw [if_neg (by simpa using a1), if_neg (by simpa using a2)] at hE
      unfold Naive.cast at hx'
      rw [if_neg (by simpa using a1), if_neg (by simpa using a2)] at hx'
      simp only [Option.bind_eq_bind, Option.bind_eq_some_iff] at hx'
      obtain ⟨r, hr, _⟩ := hx'
      exact hs os _ r hos (by simpa only [Option.bind_eq_bind, Option.bind_eq_some_iff] using hr) hE
    · intro a1 a2
      rw [if_neg (by simpa using a1), if_pos a2] at hE
      exact hE.2 x hx

/-- A program, from its beginning. -/
theorem exact_run {R : Rules} {c : Config} {b : Block} {vs : List (Val × Option Naive.Text)} (hv : Naive.outputs R c b = some vs)
    (hE : ExactProgram R c b) : ∃ N, ∀ n, N ≤ n → ∀ w, Reachable w → Inv c w.settings → w.warns = 0 →
      (run R n b w).2.warns = 0 ∧ ∃ outs, (run R n b w).1 = .ok outs ∧ List.Forall₂ OutRep outs vs := by
  obtain ⟨K, hK⟩ := rep_run hv
  unfold Naive.outputs at hv
  by_cases hp : Naive.plainB true b = true
  swap
  · rw [if_neg hp] at hv
    cases hv
  rw [if_pos hp] at hv
  rw [Option.map_eq_some_iff] at hv
  obtain ⟨q, hq, rfl⟩ := hv
  have hF : FnsOk (if R.lib then libraryFns else []) := by
    split
    · exact fnsOk_library
    · exact fun f hf => by cases hf
  have hR : FnsRep (if R.lib then libraryFns else []) (if R.lib then Naive.library else []) := by
    split
    · exact fnsRep_library
    · exact .nil
  have ctx : Ctx true (fun _ => True) (fun _ => True) (runCall R) (Naive.callIn R) :=
    ⟨callStable_any R, fun _ _ _ _ => trivial, fun n c _ => callStable R n c, fun c _ => ⟨c.left.toNat + 1, fun n hn => callRep R n c hn⟩,
      fun _ _ => trivial, fun _ _ => trivial⟩
  have sctx : SafeCtx (fun _ => True) (runCall R) (fun c => ExactUser R c c.left.toNat) (Naive.callIn R) :=
    fun c _ => ⟨c.left.toNat + 1, fun n hn => callSafe R n c hn⟩
  obtain ⟨N, T⟩ := safeB (R := R) ctx sctx b hp (p := ⟨if R.lib then Naive.library else [], ⟨none, [], []⟩, [], c⟩) trivial hq hE
  refine ⟨max N K, fun n hn w hw hi h0 => ?_⟩
  have hw' : Reachable { w with outs := [] } := hw.effects w.depthMsgs w.trace [] w.dicts
  have T' := T n (le_trans (le_max_left _ _) hn) ⟨if R.lib then libraryFns else [], ⟨none, [], []⟩⟩ hF hR ⟨rfl, .nil, .nil⟩ _ hw' hi h0
  have hsafe : (run R n b w).2.warns = 0 ∧ (run R n b w).1 ≠ .error .overflow := by
    unfold run
    rw [M.bind_apply]
    simp only [M.modify]
    rw [M.bind_apply]
    rcases hr : runB R (runCall R n) b ⟨if R.lib then libraryFns else [], ⟨none, [], []⟩⟩ { w with outs := [] } with ⟨r, w'⟩
    simp only [hr] at T'
    cases r with
    | error e => exact ⟨T'.1, fun h => by cases h; exact T'.2 rfl⟩
    | ok r => exact ⟨T'.1, fun h => by cases h⟩
  refine ⟨hsafe.1, ?_⟩
  rcases hK n (le_trans (le_max_right _ _) hn) w hw hi hsafe.1 with he | h
  · exact absurd he hsafe.2
  · exact h

end Enum
end PythonDice
