import Verif.Model.Settings

/-!
# C30: settings
-/

namespace PythonDice

/-- The documented meaning of the settings: which values each may have. -/
def Legal (name : String) (v : PyAny) : Prop :=
  (name = "RV_TRUNC" ∧ ∃ b, v = .bool b) ∨ (name = "RV_IGNORE_ZERO_PROBS" ∧ ∃ b, v = .bool b) ∨
  (name = "DEFAULT_OUTPUT_WIDTH" ∧ ((∃ n, 0 < n ∧ v = .int n) ∨ v = .bool true)) ∨
  (name = "DEFAULT_PRINT_FN" ∧ ∃ i, v = .callable i) ∨
  (name = "position order" ∧ (v = .str "highest first" ∨ v = .str "lowest first")) ∨
  (name = "explode depth" ∧ ((∃ n, 0 < n ∧ v = .int n) ∨ v = .bool true)) ∨
  (name = "maximum function depth" ∧ ((∃ n, 0 < n ∧ v = .int n) ∨ v = .bool true))

/-- The names of the settings users can set. -/
def publicNames : List String :=
  ["RV_TRUNC", "RV_IGNORE_ZERO_PROBS", "DEFAULT_OUTPUT_WIDTH", "DEFAULT_PRINT_FN", "position order", "explode depth",
   "maximum function depth"]

/-- What a legal request stores: 'true'/'false' strings, in any case, become booleans; other values are stored as they are. -/
inductive Stores : String → PyAny → PyAny → Prop
  | same (name : String) (v : PyAny) : Legal name v → Stores name v v
  | word (name s : String) (b : Bool) : name = "RV_TRUNC" ∨ name = "RV_IGNORE_ZERO_PROBS" →
      s.toList.map Char.toLower = (if b then "true".toList else "false".toList) → Stores name (.str s) (.bool b)

theorem isPosInt_iff (v : PyAny) : v.isPosInt = true ↔ (∃ n, 0 < n ∧ v = .int n) ∨ v = .bool true := by
  cases v <;> simp [PyAny.isPosInt]

theorem boolValue_ok (v x : PyAny) : boolValue v = .ok x ↔
    ((∃ b, v = .bool b) ∧ x = v) ∨ ∃ s b, v = .str s ∧ lowerChars s = (if b then "true".toList else "false".toList) ∧ x = .bool b := by
  cases v with
  | str s =>
    by_cases h1 : lowerChars s = "true".toList
    · have e : boolValue (.str s) = .ok (.bool true) := by simp [boolValue, h1]
      rw [e]
      constructor
      · intro h; cases h
        exact .inr ⟨s, true, rfl, h1, rfl⟩
      · rintro (⟨⟨b, hb⟩, _⟩ | ⟨s', b, hs, hb, rfl⟩)
        · cases hb
        · cases hs
          cases b
          · rw [h1] at hb; exact absurd hb (by decide)
          · rfl
    · by_cases h2 : lowerChars s = "false".toList
      · have e : boolValue (.str s) = .ok (.bool false) := by simp [boolValue, h2]
        rw [e]
        constructor
        · intro h; cases h
          exact .inr ⟨s, false, rfl, h2, rfl⟩
        · rintro (⟨⟨b, hb⟩, _⟩ | ⟨s', b, hs, hb, rfl⟩)
          · cases hb
          · cases hs
            cases b
            · rfl
            · rw [h2] at hb; exact absurd hb (by decide)
      · have e : boolValue (.str s) = .error .assertion := by simp only [boolValue, h1, h2, or_self, if_false]
        rw [e]
        constructor
        · intro h; cases h
        · rintro (⟨⟨b, hb⟩, _⟩ | ⟨s', b, hs, hb, rfl⟩)
          · cases hb
          · cases hs
            cases b
            · exact absurd hb h2
            · exact absurd hb h1
  | bool b => simp [boolValue, eq_comm]
  | int n => simp [boolValue]
  | callable n => simp [boolValue]
  | other n => simp [boolValue]

theorem boolValue_error (v : PyAny) (e : Err) (h : boolValue v = .error e) : e = .assertion := by
  cases v with
  | str s =>
    by_cases h1 : lowerChars s = "true".toList
    · simp [boolValue, h1] at h
    · by_cases h2 : lowerChars s = "false".toList
      · simp [boolValue, h2] at h
      · have : boolValue (.str s) = .error .assertion := by simp only [boolValue, h1, h2, or_self, if_false]
        rw [this] at h; cases h; rfl
  | bool b => cases h
  | int n => cases h; rfl
  | callable n => cases h; rfl
  | other n => cases h; rfl

theorem checkedValue_ok (name : String) (v x : PyAny) : checkedValue name v = .ok x ↔ Stores name v x := by
  unfold checkedValue
  constructor
  · intro h
    split at h
    · subst name
      split at h
      · cases h; exact .same _ _ (by simp [Legal]; assumption)
      · cases h
    split at h
    · subst name
      split at h
      · rename_i hp; cases h; exact .same _ _ (by simp [Legal]; exact (isPosInt_iff _).1 hp)
      · cases h
    split at h
    · subst name
      split at h
      · rename_i hp; cases h; exact .same _ _ (by simp [Legal]; exact (isPosInt_iff _).1 hp)
      · cases h
    split at h
    · rename_i hn
      rcases (boolValue_ok v x).1 h with ⟨hb, rfl⟩ | ⟨s, b, rfl, hs, rfl⟩
      · refine .same _ _ ?_
        rcases hn with rfl | rfl <;> simp [Legal, hb]
      · exact .word _ _ _ hn hs
    split at h
    · subst name
      split at h
      · rename_i hp; cases h; exact .same _ _ (by simp [Legal]; exact (isPosInt_iff _).1 hp)
      · cases h
    split at h
    · subst name
      split at h
      · cases h; exact .same _ _ (by simp [Legal])
      · cases h
    · cases h
  · intro h
    cases h with
    | same _ hl =>
      rcases hl with ⟨rfl, b, rfl⟩ | ⟨rfl, b, rfl⟩ | ⟨rfl, h⟩ | ⟨rfl, i, rfl⟩ | ⟨rfl, h⟩ | ⟨rfl, h⟩ | ⟨rfl, h⟩
      · simp [boolValue]
      · simp [boolValue]
      · simp [(isPosInt_iff _).2 h]
      · simp
      · simp [h]
      · simp [(isPosInt_iff _).2 h]
      · simp [(isPosInt_iff _).2 h]
    | word s b hn hs =>
      have := (boolValue_ok (.str s) (.bool b)).2 (.inr ⟨s, b, rfl, hs, rfl⟩)
      rcases hn with rfl | rfl <;> simp [this]

theorem checkedValue_error (name : String) (v : PyAny) (e : Err) (h : checkedValue name v = .error e) : e = .assertion := by
  unfold checkedValue at h
  repeat' split at h
  all_goals first
    | exact boolValue_error v e h
    | (cases h; done)
    | (cases h; rfl)

theorem Stores.legal {name : String} {v x : PyAny} (h : Stores name v x) : Legal name x := by
  cases h with
  | same _ h => exact h
  | word s b hn hs => rcases hn with rfl | rfl <;> simp [Legal]

theorem Legal.mem {name : String} {v : PyAny} (h : Legal name v) : name ∈ publicNames := by
  unfold publicNames
  rcases h with ⟨rfl, _⟩ | ⟨rfl, _⟩ | ⟨rfl, _⟩ | ⟨rfl, _⟩ | ⟨rfl, _⟩ | ⟨rfl, _⟩ | ⟨rfl, _⟩ <;> decide

theorem get_set (d : PyDict) (k k' : String) (v : PyAny) : (d.set k v).get? k' = if k' = k then some v else d.get? k' := by
  induction d with
  | nil =>
    unfold PyDict.set PyDict.get?
    by_cases h : k' = k <;> simp [List.lookup, h]
    · rw [beq_false_of_ne h]
  | cons x d ih =>
    unfold PyDict.get? at *
    unfold PyDict.set
    by_cases h1 : x.1 = k
    · rw [if_pos h1]
      by_cases h2 : k' = k
      · subst h2; simp [List.lookup, h1]
      · have : (k' == x.1) = false := beq_false_of_ne (by rw [h1]; exact h2)
        simp [List.lookup, this, h2]
    · rw [if_neg h1]
      by_cases h3 : k' = x.1
      · subst h3
        simp [List.lookup, h1]
      · have : (k' == x.1) = false := beq_false_of_ne h3
        simp only [List.lookup, this]
        exact ih

/-- C30. `settings_set` either stores a legal value, the one asked for, under exactly that name, or raises AssertionError and changes nothing;
it succeeds exactly on the documented names and values. -/
theorem C30_set (name : String) (v : PyAny) (d : PyDict) :
    (∃ x d', Stores name v x ∧ settingsSet name v d = (.ok (), d') ∧ Legal name x ∧ d'.get? name = some x ∧
      ∀ k, k ≠ name → d'.get? k = d.get? k) ∨
    ((∀ x, ¬ Stores name v x) ∧ settingsSet name v d = (.error .assertion, d)) := by
  unfold settingsSet
  cases h : checkedValue name v with
  | ok x =>
    have hs := (checkedValue_ok name v x).1 h
    refine .inl ⟨x, d.set name x, hs, rfl, hs.legal, by rw [get_set, if_pos rfl], fun k hk => by rw [get_set, if_neg hk]⟩
  | error e =>
    rw [checkedValue_error name v e h]
    refine .inr ⟨fun x hx => ?_, rfl⟩
    rw [(checkedValue_ok name v x).2 hx] at h
    cases h

/-- C30. The value stored is determined by the request. -/
theorem C30_set_functional (name : String) (v x y : PyAny) (hx : Stores name v x) (hy : Stores name v y) : x = y := by
  have h1 := (checkedValue_ok name v x).2 hx
  have h2 := (checkedValue_ok name v y).2 hy
  rw [h1] at h2
  cases h2; rfl

/-- Histories of the settings dictionary: calls of `settings_set` with anything, `settings_reset`, and the depth accounting of decorated
functions. -/
inductive DictReach : PyDict → Prop
  | init : DictReach defaultDict
  | set {d : PyDict} (name : String) (v : PyAny) : DictReach d → DictReach (settingsSet name v d).2
  | reset {d : PyDict} : DictReach d → DictReach (settingsReset d)
  | depth {d : PyDict} (n : ℤ) (b : Bool) : DictReach d → DictReach (depthSet n b d)

/-- The invariant: every public setting has a legal value, the internal ones have values of the right type. -/
structure DictOk (d : PyDict) : Prop where
  pub : ∀ name ∈ publicNames, ∃ v, d.get? name = some v ∧ Legal name v
  depth : ∃ n, d.get? "INTERNAL_CURR_DEPTH" = some (.int n)
  printed : ∃ b, d.get? "INTERNAL_CURR_DEPTH_WARNING_PRINTED" = some (.bool b)

theorem default_ok : DictOk defaultDict := by
  refine ⟨?_, ⟨0, by decide +kernel⟩, ⟨false, by decide +kernel⟩⟩
  intro name hn
  have : name = "RV_TRUNC" ∨ name = "RV_IGNORE_ZERO_PROBS" ∨ name = "DEFAULT_OUTPUT_WIDTH" ∨ name = "DEFAULT_PRINT_FN" ∨
      name = "position order" ∨ name = "explode depth" ∨ name = "maximum function depth" := by
    simpa [publicNames] using hn
  rcases this with rfl | rfl | rfl | rfl | rfl | rfl | rfl
  · exact ⟨.bool false, by decide +kernel, by simp [Legal]⟩
  · exact ⟨.bool false, by decide +kernel, by simp [Legal]⟩
  · exact ⟨.int 180, by decide +kernel, by simp [Legal]⟩
  · exact ⟨.callable 0, by decide +kernel, by simp [Legal]⟩
  · exact ⟨.str "highest first", by decide +kernel, by simp [Legal]⟩
  · exact ⟨.int 2, by decide +kernel, by simp [Legal]⟩
  · exact ⟨.int 10, by decide +kernel, by simp [Legal]⟩

/-- C30. `settings_reset()` restores the defaults from any state. -/
theorem C30_reset (d : PyDict) : settingsReset d = defaultDict := by
  change settingsReset [] = defaultDict
  decide +kernel

theorem DictOk.set {d : PyDict} (h : DictOk d) {name : String} {v : PyAny} (hl : Legal name v) : DictOk (d.set name v) := by
  have hm := hl.mem
  refine ⟨fun k hk => ?_, ?_, ?_⟩
  · rw [get_set]
    by_cases e : k = name
    · exact ⟨v, by rw [if_pos e], e ▸ hl⟩
    · rw [if_neg e]; exact h.pub k hk
  · obtain ⟨n, hn⟩ := h.depth
    refine ⟨n, ?_⟩
    rw [get_set, if_neg, hn]
    rintro rfl
    exact absurd hm (by decide)
  · obtain ⟨n, hn⟩ := h.printed
    refine ⟨n, ?_⟩
    rw [get_set, if_neg, hn]
    rintro rfl
    exact absurd hm (by decide)

/-- C30. In every reachable state all settings have legal values. -/
theorem C30_reachable (d : PyDict) (h : DictReach d) : DictOk d := by
  induction h with
  | init => exact default_ok
  | @set d name v _ ih =>
    rcases C30_set name v d with ⟨x, d', hs, he, _⟩ | ⟨_, he⟩
    · have h2 := (checkedValue_ok name v x).2 hs
      unfold settingsSet
      rw [h2]
      exact ih.set hs.legal
    · rw [he]; exact ih
  | reset _ _ => rw [C30_reset]; exact default_ok
  | @depth d n b _ ih =>
    unfold depthSet
    refine ⟨fun k hk => ?_, ⟨n, ?_⟩, ⟨b, ?_⟩⟩
    · rw [get_set, if_neg, get_set, if_neg]
      · exact ih.pub k hk
      · rintro rfl; exact absurd hk (by decide)
      · rintro rfl; exact absurd hk (by decide)
    · rw [get_set, if_neg (by decide), get_set, if_pos rfl]
    · rw [get_set, if_pos rfl]

/-- C30. Hence the rest of the code always reads settings of the right kind, as the record used in the model, with positive depths and width. -/
theorem C30_record (d : PyDict) (h : DictReach d) :
    ∃ s : Settings, d.record = some s ∧ 0 < s.explodeDepth ∧ 0 < s.maxFuncDepth ∧ 0 < s.defaultOutputWidth := by
  obtain ⟨hp, ⟨n, hn⟩, ⟨b, hb⟩⟩ := C30_reachable d h
  have posInt : ∀ v : PyAny, ((∃ n, 0 < n ∧ v = .int n) ∨ v = .bool true) → ∃ k, 0 < k ∧ v.asInt? = some k := by
    rintro v (⟨n, h, rfl⟩ | rfl)
    · exact ⟨n, h, rfl⟩
    · exact ⟨1, by norm_num, rfl⟩
  obtain ⟨v1, g1, l1⟩ := hp "RV_TRUNC" (by decide)
  obtain ⟨v2, g2, l2⟩ := hp "RV_IGNORE_ZERO_PROBS" (by decide)
  obtain ⟨v3, g3, l3⟩ := hp "DEFAULT_OUTPUT_WIDTH" (by decide)
  obtain ⟨v4, g4, l4⟩ := hp "DEFAULT_PRINT_FN" (by decide)
  obtain ⟨v5, g5, l5⟩ := hp "position order" (by decide)
  obtain ⟨v6, g6, l6⟩ := hp "explode depth" (by decide)
  obtain ⟨v7, g7, l7⟩ := hp "maximum function depth" (by decide)
  have l1' : ∃ b, v1 = .bool b := by simpa [Legal] using l1
  have l2' : ∃ b, v2 = .bool b := by simpa [Legal] using l2
  have l3' : (∃ n, 0 < n ∧ v3 = .int n) ∨ v3 = .bool true := by simpa [Legal] using l3
  have l4' : ∃ b, v4 = .callable b := by simpa [Legal] using l4
  have l5' : v5 = .str "highest first" ∨ v5 = .str "lowest first" := by simpa [Legal] using l5
  have l6' : (∃ n, 0 < n ∧ v6 = .int n) ∨ v6 = .bool true := by simpa [Legal] using l6
  have l7' : (∃ n, 0 < n ∧ v7 = .int n) ∨ v7 = .bool true := by simpa [Legal] using l7
  obtain ⟨b1, rfl⟩ := l1'
  obtain ⟨b2, rfl⟩ := l2'
  obtain ⟨b4, rfl⟩ := l4'
  obtain ⟨k3, p3, e3⟩ := posInt _ l3'
  obtain ⟨k6, p6, e6⟩ := posInt _ l6'
  obtain ⟨k7, p7, e7⟩ := posInt _ l7'
  obtain ⟨o, eo⟩ : ∃ o, v5.asOrder? = some o := by
    rcases l5' with rfl | rfl
    · exact ⟨.highestFirst, by decide +kernel⟩
    · exact ⟨.lowestFirst, by decide +kernel⟩
  refine ⟨⟨b1, b2, k3, b4, n, b, o, k6, k7⟩, ?_, p6, p7, p3⟩
  unfold PyDict.record
  rw [g1, g2, g3, g4, g5, g6, g7, hn, hb]
  simp only [bind, Option.bind, e3, e6, e7, eo]
  rfl

/-- The default dictionary is the default record. -/
theorem C30_default_record : defaultDict.record = some {} := by decide +kernel

example : settingsSet "RV_TRUNC" (.str "True") defaultDict = (.ok (), defaultDict.set "RV_TRUNC" (.bool true)) := by decide +kernel
example : settingsSet "explode depth" (.int 0) defaultDict = (.error .assertion, defaultDict) := by decide +kernel
example : settingsSet "INTERNAL_CURR_DEPTH" (.int 5) defaultDict = (.error .assertion, defaultDict) := by decide +kernel

end PythonDice
