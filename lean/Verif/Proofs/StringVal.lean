import Verif.Model.StringVal
import Verif.Proofs.Conv

/-!
# Lemmas about string outcomes
-/

namespace PythonDice

theorem CmpOp.run_congr {β γ : Type} [LinearOrder β] [LinearOrder γ] (o : CmpOp) {a b : β} {c d : γ}
    (h1 : a < b ↔ c < d) (h2 : b < a ↔ d < c) : o.run a b = o.run c d := by
  cases o <;> simp only [CmpOp.run, ← not_lt, h1, h2]

namespace StrVal

/-- A value whose dictionary has no repeated keys and whose key tuple is the sorted list of the keys. -/
structure WF (a : StrVal) : Prop where
  keys : a.keys = (a.data.map (·.1)).insertionSort (· ≤ ·)
  nodup : (a.data.map (·.1)).Nodup

/-- The sorted list of the keys with their coefficients. -/
def canon (a : StrVal) : List (PyStr ×ₗ ℤ) := a.keys.map fun k => toLex (k, dictGet a.data k)

theorem cmpLoop_eq (o : CmpOp) (da db : CoefDict) (la lb : ℕ) (ks ks' : List PyStr)
    (h : la + ks'.length = lb + ks.length) :
    cmpLoop o da db la lb ks ks' =
      o.run (ks.map fun k => (toLex (k, dictGet da k) : PyStr ×ₗ ℤ)) (ks'.map fun k => toLex (k, dictGet db k)) := by
  induction ks generalizing ks' with
  | nil =>
    cases ks' with
    | nil =>
      simp only [List.length_nil, add_zero] at h
      subst h
      exact o.run_congr (by simp) (by simp)
    | cons k' ks' =>
      simp only [List.length_nil, List.length_cons] at h
      exact o.run_congr (by simp; omega) (by simp; omega)
  | cons k ks ih =>
    cases ks' with
    | nil =>
      simp only [List.length_nil, List.length_cons] at h
      exact o.run_congr (by simp; omega) (by simp; omega)
    | cons k' ks' =>
      simp only [List.length_cons] at h
      rw [cmpLoop]
      by_cases hk : k = k'
      · subst hk
        rw [if_neg (by simp)]
        by_cases hv : dictGet da k = dictGet db k
        · rw [if_neg (by simpa using hv), ih ks' (by omega)]
          refine o.run_congr ?_ ?_
          · simp only [List.map_cons, List.cons_lt_cons_iff, hv, lt_irrefl, false_or, true_and]
          · simp only [List.map_cons, List.cons_lt_cons_iff, hv, lt_irrefl, false_or, true_and]
        · rw [if_pos hv]
          refine o.run_congr ?_ ?_
          · simp [List.cons_lt_cons_iff, Prod.Lex.toLex_lt_toLex, hv]
          · simp [List.cons_lt_cons_iff, Prod.Lex.toLex_lt_toLex, Ne.symm hv]
      · rw [if_pos hk]
        refine o.run_congr ?_ ?_
        · simp [List.cons_lt_cons_iff, Prod.Lex.toLex_lt_toLex, hk]
        · simp [List.cons_lt_cons_iff, Prod.Lex.toLex_lt_toLex, Ne.symm hk]

theorem compareTo_eq (o : CmpOp) (a b : StrVal) : a.compareTo o b = o.run a.canon b.canon :=
  cmpLoop_eq o _ _ _ _ _ _ (by omega)

theorem lookup_same (k : PyStr) (v : ℤ) (d : CoefDict) : List.lookup k ((k, v) :: d) = some v := by
  simp [List.lookup_cons]

theorem lookup_other {k k' : PyStr} (h : k ≠ k') (v : ℤ) (d : CoefDict) :
    List.lookup k ((k', v) :: d) = d.lookup k := by
  rw [List.lookup_cons, beq_false_of_ne h]

theorem lookup_eq_none {d : CoefDict} {k : PyStr} : d.lookup k = none ↔ k ∉ d.map (·.1) := by
  induction d with
  | nil => simp
  | cons kv d ih =>
    obtain ⟨k', v⟩ := kv
    by_cases h : k = k'
    · simp [h, lookup_same]
    · rw [lookup_other h, ih, List.map_cons, List.mem_cons]
      simp only [h, false_or]

theorem lookup_of_mem {d : CoefDict} (hd : (d.map (·.1)).Nodup) {k : PyStr} {v : ℤ} (h : (k, v) ∈ d) :
    d.lookup k = some v := by
  induction d with
  | nil => simp at h
  | cons kv d ih =>
    obtain ⟨k', v'⟩ := kv
    simp only [List.map_cons, List.nodup_cons] at hd
    rcases List.mem_cons.1 h with h' | h'
    · cases h'; exact lookup_same _ _ _
    · have : k ≠ k' := by
        rintro rfl
        exact hd.1 (List.mem_map_of_mem (f := (·.1)) h')
      rw [lookup_other this, ih hd.2 h']

theorem lookup_some {d : CoefDict} {k : PyStr} (h : k ∈ d.map (·.1)) : d.lookup k = some (dictGet d k) := by
  unfold dictGet
  cases h' : d.lookup k with
  | none => exact absurd h (lookup_eq_none.1 h')
  | some v => rfl

theorem dictEq_iff {d e : CoefDict} (hd : (d.map (·.1)).Nodup)
    (hk : (d.map (·.1)).Perm (e.map (·.1))) :
    dictEq d e = true ↔ ∀ k ∈ d.map (·.1), dictGet d k = dictGet e k := by
  have hl : d.length = e.length := by simpa using hk.length_eq
  simp only [dictEq, hl, beq_self_eq_true, Bool.true_and, List.all_eq_true, beq_iff_eq]
  constructor
  · intro h k hkm
    obtain ⟨⟨k', v⟩, hm, rfl⟩ := List.mem_map.1 hkm
    have h1 := h _ hm
    have h2 := lookup_of_mem hd hm
    simp only [dictGet] at *
    rw [h1, h2]
  · rintro h ⟨k, v⟩ hm
    have hkm : k ∈ d.map (·.1) := List.mem_map_of_mem (f := (·.1)) hm
    have h1 := lookup_of_mem hd hm
    have h2 := h k hkm
    have h3 := lookup_some (hk.subset hkm)
    simp only [dictGet, h1] at *
    rw [h3, ← h2]
    rfl

theorem WF.perm {a : StrVal} (h : a.WF) : a.keys.Perm (a.data.map (·.1)) := by
  rw [h.keys]; exact List.perm_insertionSort _ _

theorem eq_iff_canon {a b : StrVal} (ha : a.WF) (hb : b.WF) : a.eq b = true ↔ a.canon = b.canon := by
  have hfst : ∀ c : StrVal, c.canon.map (fun x => (ofLex x).1) = c.keys := by
    intro c; simp [canon, Function.comp_def]
  constructor
  · intro h
    simp only [eq, Bool.and_eq_true, beq_iff_eq] at h
    obtain ⟨hk, hd⟩ := h
    have hp : (a.data.map (·.1)).Perm (b.data.map (·.1)) := ha.perm.symm.trans (hk ▸ hb.perm)
    rw [dictEq_iff ha.nodup hp] at hd
    unfold canon
    rw [← hk]
    exact List.map_congr_left fun k hkm => by rw [hd k (ha.perm.subset hkm)]
  · intro h
    have hk : a.keys = b.keys := by rw [← hfst a, ← hfst b, h]
    have hp : (a.data.map (·.1)).Perm (b.data.map (·.1)) := ha.perm.symm.trans (hk ▸ hb.perm)
    simp only [eq, Bool.and_eq_true, beq_iff_eq]
    refine ⟨hk, (dictEq_iff ha.nodup hp).2 fun k hkm => ?_⟩
    unfold canon at h
    rw [← hk, List.map_inj_left] at h
    have := h k (ha.perm.symm.subset hkm)
    simpa using this

/-! ## Addition -/

theorem dictGet_set (d : CoefDict) (k : PyStr) (v : ℤ) (j : PyStr) :
    dictGet (dictSet d k v) j = if j = k then v else dictGet d j := by
  induction d with
  | nil =>
    by_cases h : j = k
    · subst h; simp [dictSet, dictGet, lookup_same]
    · simp [dictSet, dictGet, lookup_other h, h]
  | cons kv d ih =>
    obtain ⟨k', v'⟩ := kv
    unfold dictGet at ih ⊢
    rw [dictSet]
    by_cases h : k' = k
    · subst h
      rw [if_pos rfl]
      by_cases hj : j = k'
      · subst hj; simp [lookup_same]
      · simp [lookup_other hj, hj]
    · rw [if_neg h]
      by_cases hj : j = k'
      · subst hj; simp [lookup_same, h]
      · rw [lookup_other hj, lookup_other hj, ih]

theorem keys_set (d : CoefDict) (k : PyStr) (v : ℤ) :
    (dictSet d k v).map (·.1) = if k ∈ d.map (·.1) then d.map (·.1) else d.map (·.1) ++ [k] := by
  induction d with
  | nil => simp [dictSet]
  | cons kv d ih =>
    obtain ⟨k', v'⟩ := kv
    rw [dictSet]
    by_cases h : k' = k
    · simp [h]
    · simp only [if_neg h, List.map_cons, ih, List.mem_cons, Ne.symm h, false_or]
      split <;> simp

theorem mem_keys_set (d : CoefDict) (k : PyStr) (v : ℤ) (j : PyStr) :
    j ∈ (dictSet d k v).map (·.1) ↔ j = k ∨ j ∈ d.map (·.1) := by
  rw [keys_set]
  split
  · constructor
    · exact Or.inr
    · rintro (rfl | h) <;> assumption
  · rw [List.mem_append, List.mem_singleton, or_comm]

theorem nodup_set {d : CoefDict} (hd : (d.map (·.1)).Nodup) (k : PyStr) (v : ℤ) :
    ((dictSet d k v).map (·.1)).Nodup := by
  rw [keys_set]
  split
  · exact hd
  · rename_i h
    rw [List.nodup_append]
    refine ⟨hd, by simp, ?_⟩
    intro a ha b hb
    rw [List.mem_singleton] at hb
    subst hb
    rintro rfl
    exact h ha

theorem nodup_addLoop {d : CoefDict} (hd : (d.map (·.1)).Nodup) (e : CoefDict) :
    ((addLoop d e).map (·.1)).Nodup := by
  induction e generalizing d with
  | nil => exact hd
  | cons kv e ih => exact ih (nodup_set hd _ _)

theorem mem_keys_addLoop (d e : CoefDict) (j : PyStr) :
    j ∈ (addLoop d e).map (·.1) ↔ j ∈ d.map (·.1) ∨ j ∈ e.map (·.1) := by
  induction e generalizing d with
  | nil => simp [addLoop]
  | cons kv e ih =>
    rw [addLoop, ih, mem_keys_set, List.map_cons, List.mem_cons]
    tauto

theorem dictGet_addLoop (d e : CoefDict) (he : (e.map (·.1)).Nodup) (j : PyStr) :
    dictGet (addLoop d e) j = dictGet d j + dictGet e j := by
  induction e generalizing d with
  | nil => simp [addLoop, dictGet]
  | cons kv e ih =>
    obtain ⟨k, v⟩ := kv
    simp only [List.map_cons, List.nodup_cons] at he
    rw [addLoop, ih _ he.2, dictGet_set]
    by_cases h : j = k
    · subst h
      have : dictGet e j = 0 := by simp [dictGet, lookup_eq_none.2 he.1]
      have h2 : dictGet ((j, v) :: e) j = v := by rw [dictGet, lookup_same]; rfl
      rw [if_pos rfl, this, h2, add_zero]
    · have : dictGet ((k, v) :: e) j = dictGet e j := by rw [dictGet, lookup_other h, dictGet]
      rw [if_neg h, this]

theorem wf_fromPairs {d : CoefDict} (hd : (d.map (·.1)).Nodup) : (fromPairs d).WF := ⟨rfl, hd⟩

theorem wf_add {a : StrVal} (ha : a.WF) (b : StrVal) : (a.add b).WF := wf_fromPairs (nodup_addLoop ha.nodup _)

theorem wf_fromStr (s : PyStr) : (fromStr s).WF := ⟨rfl, by simp [fromStr, mk']⟩

theorem wf_fromConst (n : ℤ) : (fromConst n).WF := ⟨rfl, by simp [fromConst, mk']⟩

theorem mem_keys_fromPairs (d : CoefDict) (k : PyStr) : k ∈ (fromPairs d).keys ↔ k ∈ d.map (·.1) := by
  simp only [fromPairs, mk']
  exact (List.perm_insertionSort _ _).mem_iff

/-- Equality is equality of the coefficients. -/
theorem eq_iff_coef {a b : StrVal} (ha : a.WF) (hb : b.WF) :
    a.eq b = true ↔ (∀ k, k ∈ a.data.map (·.1) ↔ k ∈ b.data.map (·.1)) ∧
      ∀ k, dictGet a.data k = dictGet b.data k := by
  have h0 : ∀ (c : StrVal) k, k ∉ c.data.map (·.1) → dictGet c.data k = 0 := by
    intro c k hk; simp [dictGet, lookup_eq_none.2 hk]
  constructor
  · intro h
    simp only [eq, Bool.and_eq_true, beq_iff_eq] at h
    obtain ⟨hk, hd⟩ := h
    have hp : (a.data.map (·.1)).Perm (b.data.map (·.1)) := ha.perm.symm.trans (hk ▸ hb.perm)
    rw [dictEq_iff ha.nodup hp] at hd
    refine ⟨fun k => hp.mem_iff, fun k => ?_⟩
    by_cases hm : k ∈ a.data.map (·.1)
    · exact hd k hm
    · rw [h0 a k hm, h0 b k (fun h' => hm (hp.mem_iff.2 h'))]
  · rintro ⟨hm, hv⟩
    have hp : (a.data.map (·.1)).Perm (b.data.map (·.1)) :=
      (List.perm_ext_iff_of_nodup ha.nodup hb.nodup).2 hm
    simp only [eq, Bool.and_eq_true, beq_iff_eq]
    refine ⟨?_, (dictEq_iff ha.nodup hp).2 fun k _ => hv k⟩
    rw [ha.keys, hb.keys]
    exact List.Perm.eq_of_pairwise' (List.pairwise_insertionSort _ _) (List.pairwise_insertionSort _ _)
      ((List.perm_insertionSort _ _).trans (hp.trans (List.perm_insertionSort _ _).symm))

end StrVal

namespace Out

/-- An int, or a well-formed string outcome. -/
def WF : Out → Prop
  | num _ => True
  | str s => s.WF

/-- The canonical form of an outcome. -/
abbrev Canon := ℤ ⊕ₗ List (PyStr ×ₗ ℤ)

def canon : Out → Canon
  | num n => toLex (.inl n)
  | str s => toLex (.inr s.canon)

theorem cmp_eq (o : CmpOp) (a b : Out) : cmp o a b = o.run a.canon b.canon := by
  cases a <;> cases b
  · exact o.run_congr (by simp [canon, Sum.Lex.inl_lt_inl_iff]) (by simp [canon, Sum.Lex.inl_lt_inl_iff])
  · rename_i m s
    show o.reflect.run (⊤ : WithTop ℤ) (m : WithTop ℤ) = _
    cases o <;> simp [CmpOp.reflect, CmpOp.run, canon, Sum.Lex.inl_lt_inr, Sum.Lex.inl_le_inr]
  · rename_i s n
    show o.run (⊤ : WithTop ℤ) (n : WithTop ℤ) = _
    cases o <;> simp [CmpOp.run, canon, Sum.Lex.inl_lt_inr, Sum.Lex.inl_le_inr]
  · exact (StrVal.compareTo_eq o _ _).trans
      (o.run_congr (by simp [canon, Sum.Lex.inr_lt_inr_iff]) (by simp [canon, Sum.Lex.inr_lt_inr_iff]))

theorem eq_iff {a b : Out} (ha : a.WF) (hb : b.WF) : eq a b = true ↔ a.canon = b.canon := by
  cases a <;> cases b
  · simp [eq, canon]
  · simp [eq, canon]
  · simp [eq, canon]
  · simp only [eq, canon, StrVal.eq_iff_canon ha hb, toLex_inj, Sum.inr.injEq]

theorem wf_add {a b : Out} (ha : a.WF) (hb : b.WF) : (a.add b).WF := by
  cases a <;> cases b
  · trivial
  · exact StrVal.wf_add hb _
  · exact StrVal.wf_add ha _
  · exact StrVal.wf_add ha _

/-- Outcomes in canonical form can be the outcomes of a die; `int()` of a string outcome raises. -/
instance : PyVal Canon where
  zero := toLex (.inl 0)
  trunc c := match ofLex c with
    | .inl n => .ok (toLex (.inl n))
    | .inr _ => .error .type

/-! ## The constructor -/

theorem canon_lexGe {a b : Out × ℕ} (ha : a.1.WF) (hb : b.1.WF) :
    lexGe a b = RV.lexGe (a.1.canon, a.2) (b.1.canon, b.2) := by
  unfold lexGe RV.lexGe
  by_cases h : eq b.1 a.1 = true
  · rw [if_pos h]
    have := (eq_iff hb ha).1 h
    simp [this]
  · rw [if_neg h]
    have h' : b.1.canon ≠ a.1.canon := fun e => h ((eq_iff hb ha).2 e)
    simp [cmp_eq, CmpOp.run, h']

theorem canon_getZip (v : List Out) (p : List ℕ) (hv : ∀ a ∈ v, a.WF) :
    (getZip v p).map (Prod.map canon id) = RV.getZip (v.map canon) p := by
  unfold getZip RV.getZip
  rw [List.map_insertionSort (r := fun a b => lexGe a b = true) (s := fun a b => RV.lexGe a b = true)]
  · rw [List.zip_map_left]
  · intro a ha b hb
    rw [canon_lexGe (hv _ (List.of_mem_zip ha).1) (hv _ (List.of_mem_zip hb).1)]
    rfl

theorem canon_groupLoop (cur : Out × ℕ) (l acc : List (Out × ℕ)) (hc : cur.1.WF) (hl : ∀ a ∈ l, a.1.WF) :
    (groupLoop cur l acc).map (Prod.map canon id) =
      RV.groupLoop (Prod.map canon id cur) (l.map (Prod.map canon id)) (acc.map (Prod.map canon id)) := by
  induction l generalizing cur acc with
  | nil => simp [groupLoop, RV.groupLoop]
  | cons x l ih =>
    have hx := hl x (by simp)
    rw [groupLoop, List.map_cons, RV.groupLoop]
    by_cases h : eq cur.1 x.1 = true
    · rw [if_pos h, if_pos (by exact (eq_iff hc hx).1 h), ih _ _ (by exact hx) fun a ha => hl a (by simp [ha])]
      rfl
    · rw [if_neg h, if_neg (by exact fun e => h ((eq_iff hc hx).2 e)), ih _ _ hx fun a ha => hl a (by simp [ha])]
      simp

theorem canon_newZipped (z : List (Out × ℕ)) (s : Bool) (hz : ∀ a ∈ z, a.1.WF) :
    (newZipped z s).map (Prod.map canon id) = RV.newZipped (z.map (Prod.map canon id)) s := by
  have key : ∀ r : List (Out × ℕ), (∀ a ∈ r, a.1.WF) → z.reverse = r →
      (newZipped z s).map (Prod.map canon id) = RV.newZipped (z.map (Prod.map canon id)) s := by
    intro r hr hzr
    unfold newZipped RV.newZipped
    rw [← List.map_reverse, hzr]
    cases r with
    | nil => cases s <;> rfl
    | cons c rest =>
      have h := canon_groupLoop c rest [] (hr c (by simp)) fun a ha => hr a (by simp [ha])
      simp only [List.map_cons]
      rw [List.map_nil] at h
      rw [← h]
      cases s
      · rfl
      · simp only [if_true, List.filter_map]
        rfl
  exact key z.reverse (by simpa using hz) rfl

theorem mem_groupLoop (cur : Out × ℕ) (l acc : List (Out × ℕ)) {a : Out × ℕ} (h : a ∈ groupLoop cur l acc) :
    a.1 = cur.1 ∨ (∃ b ∈ l, a.1 = b.1) ∨ a ∈ acc := by
  induction l generalizing cur acc with
  | nil =>
    simp only [groupLoop, List.mem_append, List.mem_singleton] at h
    rcases h with h | rfl
    · exact .inr (.inr h)
    · exact .inl rfl
  | cons x l ih =>
    rw [groupLoop] at h
    split at h
    · rcases ih _ _ h with h | ⟨b, hb, h⟩ | h
      · exact .inr (.inl ⟨x, by simp, h⟩)
      · exact .inr (.inl ⟨b, by simp [hb], h⟩)
      · exact .inr (.inr h)
    · rcases ih _ _ h with h | ⟨b, hb, h⟩ | h
      · exact .inr (.inl ⟨x, by simp, h⟩)
      · exact .inr (.inl ⟨b, by simp [hb], h⟩)
      · rw [List.mem_append, List.mem_singleton] at h
        rcases h with h | rfl
        · exact .inr (.inr h)
        · exact .inl rfl

theorem mem_newZipped (z : List (Out × ℕ)) (s : Bool) {a : Out × ℕ} (h : a ∈ newZipped z s) :
    ∃ b ∈ z, a.1 = b.1 := by
  unfold newZipped at h
  cases hz : z.reverse with
  | nil => rw [hz] at h; cases s <;> simp at h
  | cons c rest =>
    rw [hz] at h
    have h' : a ∈ groupLoop c rest [] := by
      cases s
      · exact h
      · exact List.mem_of_mem_filter h
    have hm : ∀ b, b ∈ c :: rest → b ∈ z := fun b hb => by rw [← List.mem_reverse, hz]; exact hb
    rcases mem_groupLoop _ _ _ h' with h | ⟨b, hb, h⟩ | h
    · exact ⟨c, hm c (by simp), h⟩
    · exact ⟨b, hm b (by simp [hb]), h⟩
    · simp at h

/-- The die with its outcomes in canonical form. -/
def canonRV (r : RV Out) : RV Canon := { vals := r.vals.map canon, probs := r.probs }

theorem canon_normalized (nz : List (Out × ℕ)) (b : Bool) :
    RV.normalized (nz.map (Prod.map canon id)) b = Prod.map (List.map canon) id (RV.normalized nz b) := by
  unfold RV.normalized
  simp only [List.map_map]
  have h1 : (fun x : Canon × ℕ => x.1) ∘ Prod.map canon id = canon ∘ fun x : Out × ℕ => x.1 := rfl
  have h2 : (fun x : Canon × ℕ => x.2) ∘ Prod.map canon id = fun x : Out × ℕ => x.2 := rfl
  simp only [h1, h2]
  cases b
  · simp
  · simp only [if_true]
    split <;> simp

theorem canon_sortAndGroup (vals : List Out) (probs : List ℤ) (s n : Bool) (hv : ∀ a ∈ vals, a.WF) :
    (sortAndGroup vals probs s n).map (Prod.map (List.map canon) id) =
      RV.sortAndGroup (vals.map canon) probs s n := by
  unfold sortAndGroup RV.sortAndGroup
  split
  · rw [← canon_getZip _ _ hv, ← canon_newZipped, canon_normalized]
    · rfl
    · intro a ha
      have : a ∈ vals.zip (probs.map Int.toNat) := (List.perm_insertionSort _ _).subset ha
      exact hv _ (List.of_mem_zip this).1
  · rfl

theorem mapM_trunc (l : List Out) :
    (∃ e, l.mapM trunc = .error e ∧ (l.map canon).mapM PyVal.trunc = .error e) ∨
      (l.mapM trunc = .ok l ∧ (l.map canon).mapM PyVal.trunc = .ok (l.map canon)) := by
  induction l with
  | nil => exact .inr ⟨rfl, rfl⟩
  | cons x l ih =>
    cases x with
    | str s =>
      refine .inl ⟨.type, ?_, ?_⟩
      · rw [List.mapM_cons]; rfl
      · rw [List.map_cons, List.mapM_cons]; rfl
    | num n =>
      rcases ih with ⟨e, h1, h2⟩ | ⟨h1, h2⟩
      · refine .inl ⟨e, ?_, ?_⟩
        · rw [List.mapM_cons, h1]; rfl
        · rw [List.map_cons, List.mapM_cons, h2]; rfl
      · refine .inr ⟨?_, ?_⟩
        · rw [List.mapM_cons, h1]; rfl
        · rw [List.map_cons, List.mapM_cons, h2]; rfl

/-- The rest of the constructor after truncation. -/
theorem canon_mkRest (st : Settings) (vals : List Out) (probs : List ℤ) (hv : ∀ a ∈ vals, a.WF) :
    (do
      let d ← sortAndGroup vals probs st.rvIgnoreZeroProbs true
      if d.1.length = 0 then return { vals := [num 0], probs := [1] }
      else return { vals := d.1, probs := d.2 } : Except Err (RV Out)).map canonRV =
    (do
      let d ← RV.sortAndGroup (vals.map canon) probs st.rvIgnoreZeroProbs true
      if d.1.length = 0 then return { vals := [PyVal.zero], probs := [1] }
      else return { vals := d.1, probs := d.2 } : Except Err (RV Canon)) := by
  rw [← canon_sortAndGroup _ _ _ _ hv]
  cases sortAndGroup vals probs st.rvIgnoreZeroProbs true with
  | error e => rfl
  | ok x =>
    obtain ⟨vs, ps⟩ := x
    cases vs with
    | nil => rfl
    | cons v vs => rfl

theorem mkRV_canon (st : Settings) (vals : List Out) (probs : List ℤ) (t : Option Bool) (hv : ∀ a ∈ vals, a.WF) :
    (mkRV st vals probs t).map canonRV = RV.mk' st (vals.map canon) probs t := by
  have hr := canon_mkRest st vals probs hv
  unfold mkRV RV.mk'
  by_cases hl : vals.length = probs.length
  · rw [if_neg (not_not.2 hl), if_neg (not_not.2 (by rw [List.length_map]; exact hl))]
    cases ht : t.getD st.rvTrunc
    · exact hr
    · rcases mapM_trunc vals with ⟨e, h1, h2⟩ | ⟨h1, h2⟩
      · simp only [if_true, h1, h2]
        rfl
      · simp only [if_true, h1, h2]
        exact hr
  · have hl' : (vals.map canon).length ≠ probs.length := by rw [List.length_map]; exact hl
    rw [if_pos hl]
    simp only [if_pos hl']
    rfl

end Out

end PythonDice
