import Verif.Args.ValidateTidy
import Verif.Args.DescProps
/-!
# From tidy entries to descriptions of good form
-/

namespace Verif.Args
open Verif JsonDrv Schema

variable {w : World} {E : Env}

/-- What every call sees to. -/
def PlainForm (k : Bytes) (v : Val) : Prop :=
  (k ∈ [kDescription, kTitle] → IsText v) ∧ (k ∈ [kMaxArgs, kMaxLength, kMinArgs, kMinLength] → IsSize v) ∧
  (k ∈ [kMaximum, kMinimum] → isNumber v = true)

/-- The pattern and the choices of an entry are of good form. -/
def ChecksOk (E : Env) (v : Val) : Prop :=
  (∀ x, getKey? v kPattern = some x → IsRegex E x) ∧ ∀ x, getKey? v kEnum = some x → SetOf E IsChoice x

/-- The description of an option has a name. -/
def HasName (v : Val) : Prop := (getKey? v kShortOption).isSome = true ∨ (getKey? v kLongOption).isSome = true

theorem extra_none {o : Opt} {a k : Bytes} (h : k ∉ [kAdvanced, kKeypath, kRequired, kAction, kLongOption, kShortOption, kType]) :
    extra o a k = none := by
  simp only [List.mem_cons, List.not_mem_nil, or_false, not_or] at h
  obtain ⟨h1, h2, h3, h4, h5, h6, h7⟩ := h
  unfold extra
  rw [if_neg h1, if_neg h2, if_neg h3, if_neg h4, if_neg h5, if_neg h6, if_neg h7]

theorem actionWord_is {a : Action} {t : Bytes} (h : actionWord a = .ok t) : IsAction (.str t) := by
  refine ⟨t, rfl, ?_⟩
  cases a <;> cases h <;> decide

theorem typeVal_is (t : Ty) : IsType (typeVal t) := by
  unfold typeVal
  split
  · exact .inl rfl
  · exact .inr ⟨_, rfl, by cases t <;> decide⟩

theorem isSize_uint (n : UInt64) : IsSize (.uint n) := .inl ⟨_, rfl, Int.mul_nonneg (Int.natCast_nonneg _) (by decide), Int.dvd_mul_left _ _⟩
theorem isSize_one : IsSize (.int 1) := .inl ⟨_, rfl, by decide, Int.dvd_mul_left _ _⟩

/-- What the description of a tidy entry looks like. -/
theorem entry_described {o : Opt} {v : Val} (ht : Told w o) (hf : Neat PlainForm o.cfg)
    (he : Named o → ∀ x, optGet o.cfg kEnv = some x → IsText x) (hd : describeOpt o = .ok v) :
    ∃ D, v = .map D ∧ AMap.Sorted D ∧ (EntryOk E D ↔ ChecksOk E v) ∧ (Keys [(kKeypath, IsText)] D ∧ (AMap.get D kKeypath).isSome = true) ∧
      (Named o → Keys [(kEnv, IsText), (kLongOption, IsText), (kShortOption, IsChar)] D) ∧ (HasName v ↔ Named o) := by
  obtain ⟨_, m, hm, hs, h1, x, t, h2, _⟩ := ht
  obtain ⟨a, ha⟩ : ∃ a, actionWord o.cfg.action = .ok a := by
    unfold describeOpt at hd
    cases ha : actionWord o.cfg.action with
    | ok a => exact ⟨a, rfl⟩
    | throw e => rw [ha] at hd; cases hd
    | ub => rw [ha] at hd; cases hd
  obtain ⟨D, hD, hsD, hg⟩ := describeOpt_ok hm hs ha
  rw [hD] at hd; cases hd
  have hmem : ∀ {k x}, (k, x) ∈ D ↔ AMap.get D k = some x := ⟨fun h => AMap.get_of_mem hsD h, get_mem_of⟩
  have hown : ∀ {k : Bytes} {x}, k ∉ [kAdvanced, kKeypath, kRequired, kAction, kLongOption, kShortOption, kType] → AMap.get D k = some x → optGet o.cfg k = some x := by
    intro k x hk hx
    rw [hg, extra_none hk] at hx
    unfold optGet; rw [hm]; exact hx
  have hplain : ∀ {k : Bytes} {x}, k ∉ [kAdvanced, kKeypath, kRequired, kAction, kLongOption, kShortOption, kType] → AMap.get D k = some x → PlainForm k x :=
    fun hk hx => hf _ _ (hown hk hx)
  have e1 : AMap.get D kAdvanced = some (.bool o.cfg.advanced) := by rw [hg]; rfl
  have e2 : AMap.get D kKeypath = some (.str (PathM.pathString o.path)) := by rw [hg]; rfl
  have e3 : AMap.get D kRequired = some (.bool o.cfg.required) := by rw [hg]; rfl
  have e4 : AMap.get D kAction = some (.str a) := by rw [hg]; rfl
  have e5 : AMap.get D kLongOption = if o.long ≠ [] then some (.str o.long) else none := by rw [hg]; rfl
  have e6 : AMap.get D kShortOption = if o.short > 0 then some (.str [(toChar o.short).toUInt8]) else none := by rw [hg]; rfl
  have e7 : AMap.get D kType = some (typeVal o.cfg.ty) := by rw [hg]; rfl
  have e8 : AMap.get D kTitle = AMap.get m kTitle := by rw [hg, extra_none (by decide)]; rfl
  have e9 : AMap.get D kDescription = AMap.get m kDescription := by rw [hg, extra_none (by decide)]; rfl
  refine ⟨D, rfl, hsD, ⟨fun h => ⟨fun x hx => ?_, fun x hx => ?_⟩, fun h => ⟨?_, ?_, ?_, ?_⟩⟩, ⟨?_, ?_⟩, fun hn => ?_, ?_⟩
  · exact h.keys kPattern (IsRegex E) (by simp [entryForms]) x (hmem.2 hx)
  · exact h.keys kEnum (SetOf E IsChoice) (by simp [entryForms]) x (hmem.2 hx)
  · intro k P hP x hx
    rw [hmem] at hx
    simp only [entryForms, List.mem_cons, List.not_mem_nil, or_false, Prod.mk.injEq] at hP
    rcases hP with ⟨rfl, rfl⟩ | ⟨rfl, rfl⟩ | ⟨rfl, rfl⟩ | ⟨rfl, rfl⟩ | ⟨rfl, rfl⟩ | ⟨rfl, rfl⟩ | ⟨rfl, rfl⟩ | ⟨rfl, rfl⟩ | ⟨rfl, rfl⟩ | ⟨rfl, rfl⟩ |
      ⟨rfl, rfl⟩ | ⟨rfl, rfl⟩ | ⟨rfl, rfl⟩ | ⟨rfl, rfl⟩ | ⟨rfl, rfl⟩ | ⟨rfl, rfl⟩
    · rw [e4] at hx; cases hx; exact actionWord_is ha
    · rw [e1] at hx; cases hx; exact ⟨_, rfl⟩
    · trivial
    · trivial
    · exact (hplain (by decide) hx).1 (by decide)
    · exact h.2 x hx
    · exact (hplain (by decide) hx).2.1 (by decide)
    · exact (hplain (by decide) hx).2.1 (by decide)
    · exact (hplain (by decide) hx).2.2 (by decide)
    · exact (hplain (by decide) hx).2.1 (by decide)
    · exact (hplain (by decide) hx).2.1 (by decide)
    · exact (hplain (by decide) hx).2.2 (by decide)
    · exact h.1 x hx
    · rw [e3] at hx; cases hx; exact ⟨_, rfl⟩
    · exact (hplain (by decide) hx).1 (by decide)
    · rw [e7] at hx; cases hx; exact typeVal_is _
  · rw [e8]; exact h1
  · rw [e9, h2]; rfl
  · rw [e4]; rfl
  · intro k P hP x hx
    rw [hmem] at hx
    simp only [List.mem_cons, List.not_mem_nil, or_false, Prod.mk.injEq] at hP
    obtain ⟨rfl, rfl⟩ := hP
    rw [e2] at hx; cases hx; exact ⟨_, rfl⟩
  · rw [e2]; rfl
  · intro k P hP x hx
    rw [hmem] at hx
    simp only [List.mem_cons, List.not_mem_nil, or_false, Prod.mk.injEq] at hP
    rcases hP with ⟨rfl, rfl⟩ | ⟨rfl, rfl⟩ | ⟨rfl, rfl⟩
    · exact he hn x (hown (by decide) hx)
    · rw [e5] at hx
      split at hx
      · cases hx; exact ⟨_, rfl⟩
      · cases hx
    · rw [e6] at hx
      split at hx
      · cases hx; exact ⟨_, rfl, rfl⟩
      · cases hx
  · show (AMap.get D kShortOption).isSome = true ∨ (AMap.get D kLongOption).isSome = true ↔ _
    rw [e5, e6]
    unfold Named
    by_cases a1 : o.short > 0 <;> by_cases a2 : o.long = [] <;> simp [a1, a2]

theorem group_described {s : St} {ord : List Int32 → List Int32} {g : Group} {d : Val} (h : describeGroup s ord g = .ok d) : GroupOk d := by
  obtain ⟨mem, D, hk, rfl, hg⟩ := describeGroup_says h
  have hb := keypaths_both _ hk
  have hsD : AMap.Sorted D := by
    unfold describeGroup at h
    rw [hk] at h
    cases h
    exact AMap.sorted_set (AMap.sorted_set (AMap.sorted_set (AMap.sorted_set (sorted_mergeKeys (m := []) trivial _) _ _) _ _) _ _) _ _
  refine ⟨D, rfl, fun k P hP x hx => ?_⟩
  have hx := AMap.get_of_mem hsD hx
  rw [hg] at hx
  simp only [List.mem_cons, List.not_mem_nil, or_false, Prod.mk.injEq] at hP
  rcases hP with ⟨rfl, rfl⟩ | ⟨rfl, rfl⟩ | ⟨rfl, rfl⟩ | ⟨rfl, rfl⟩ | ⟨rfl, rfl⟩ | ⟨rfl, rfl⟩
  · cases hx; exact ⟨_, rfl⟩
  · replace hx : (if g.description ≠ [] then some (Val.str g.description) else none) = some x := hx
    split at hx
    · cases hx; exact ⟨_, rfl⟩
    · cases hx
  · cases hx
    refine ⟨mem, rfl, fun v hv => ?_⟩
    obtain ⟨_, _, _, rfl, _⟩ := hb.left hv
    exact ⟨_, rfl⟩
  · cases hx; exact ⟨_, rfl⟩
  · cases hx; exact ⟨_, rfl⟩
  · replace hx : (if g.title ≠ [] then some (Val.str g.title) else none) = some x := hx
    split at hx
    · cases hx; exact ⟨_, rfl⟩
    · cases hx

/-- The keys of a description. -/
theorem description_keys {ord : List Int32 → List Int32} {P : Parser} {d : Val} (h : getDescription ord P = .ok d) :
    ∃ m, d = .map m ∧ AMap.Sorted m ∧ ∀ k v, AMap.get m k = some v → (k = kOptions ∧ v = .map (mapIn d kOptions)) ∨
      (k = kArguments ∧ v = .list (listIn d kArguments)) ∨ (k = kGroups ∧ v = .map (mapIn d kGroups)) ∨
      (k ≠ kOptions ∧ k ≠ kArguments ∧ k ≠ kGroups ∧ IsText v) := by
  unfold getDescription at h
  cases h1 : describeOptions P.st P.st.reg.options [] with
  | throw e => rw [h1] at h; cases h
  | ub => rw [h1] at h; cases h
  | ok os =>
    rw [h1] at h
    cases h2 : describeArguments P.st P.st.reg.arguments with
    | throw e => rw [h2] at h; cases h
    | ub => rw [h2] at h; cases h
    | ok as_ =>
      rw [h2] at h
      cases h3 : describeGroups P.st ord P.st.groups with
      | throw e => rw [h3] at h; cases h
      | ub => rw [h3] at h; cases h
      | ok gs =>
        rw [h3] at h
        cases h
        refine ⟨_, rfl, sorted_mergeKeys ?_ _, fun k v hv => ?_⟩
        · refine ⟨fun p hp => ?_, fun p hp => ?_, nofun, trivial⟩
          · simp at hp; rcases hp with rfl | rfl
            · exact (by decide : keyLt kDescription kEpilog = true)
            · exact (by decide : keyLt kDescription kTitle = true)
          · simp at hp; subst hp; exact (by decide : keyLt kEpilog kTitle = true)
        have hval : (k = kOptions → v = .map os) ∧ (k = kArguments → v = .list as_) ∧ (k = kGroups → v = .map gs) ∧
            (k ≠ kOptions → k ≠ kArguments → k ≠ kGroups → IsText v) := by
          rcases get_mergeKeys_any (m := [(kDescription, .str P.description), (kEpilog, .str P.epilog), (kTitle, .str P.title)])
            (o := ifSome kOptions P.st.reg.options (.map os) ++ ifSome kArguments P.st.reg.arguments (.list as_) ++ ifSome kGroups P.st.groups (.map gs))
            (k := k) with e | ⟨x, hx, e⟩
          · rw [e] at hv
            simp only [AMap.get] at hv
            split at hv
            · rename_i e; cases hv; subst e
              exact ⟨fun h => absurd h (by decide), fun h => absurd h (by decide), fun h => absurd h (by decide), fun _ _ _ => ⟨_, rfl⟩⟩
            · split at hv
              · rename_i e; cases hv; subst e
                exact ⟨fun h => absurd h (by decide), fun h => absurd h (by decide), fun h => absurd h (by decide), fun _ _ _ => ⟨_, rfl⟩⟩
              · split at hv
                · rename_i e; cases hv; subst e
                  exact ⟨fun h => absurd h (by decide), fun h => absurd h (by decide), fun h => absurd h (by decide), fun _ _ _ => ⟨_, rfl⟩⟩
                · cases hv
          · rw [e] at hv; cases hv
            have hi : ∀ {α : Type} {k' : Bytes} {xs : List α} {y : Val}, (k, v) ∈ ifSome k' xs y → k = k' ∧ v = y := by
              intro α k' xs y h
              unfold ifSome at h
              split at h
              · cases h
              · simpa using h
            rcases List.mem_append.1 hx with hx | hx
            · rcases List.mem_append.1 hx with hx | hx
              · obtain ⟨rfl, rfl⟩ := hi hx
                exact ⟨fun _ => rfl, fun h => absurd h (by decide), fun h => absurd h (by decide), fun h => absurd rfl h⟩
              · obtain ⟨rfl, rfl⟩ := hi hx
                exact ⟨fun h => absurd h (by decide), fun _ => rfl, fun h => absurd h (by decide), fun _ h => absurd rfl h⟩
            · obtain ⟨rfl, rfl⟩ := hi hx
              exact ⟨fun h => absurd h (by decide), fun h => absurd h (by decide), fun _ => rfl, fun _ _ h => absurd rfl h⟩
        by_cases c1 : k = kOptions
        · refine .inl ⟨c1, ?_⟩
          subst c1
          have := hval.1 rfl; subst this
          unfold mapIn
          rw [show getKey? (.map _) kOptions = some (Val.map os) from hv]
        by_cases c2 : k = kArguments
        · refine .inr (.inl ⟨c2, ?_⟩)
          subst c2
          have := hval.2.1 rfl; subst this
          unfold listIn
          rw [show getKey? (.map _) kArguments = some (Val.list as_) from hv]
        by_cases c3 : k = kGroups
        · refine .inr (.inr (.inl ⟨c3, ?_⟩))
          subst c3
          have := hval.2.2.1 rfl; subst this
          unfold mapIn
          rw [show getKey? (.map _) kGroups = some (Val.map gs) from hv]
        exact .inr (.inr (.inr ⟨c1, c2, c3, hval.2.2.2 c1 c2 c3⟩))

/-- Where the options of a description come from. -/
theorem option_source {s : St} {os : List (Bytes × Val)} (h : describeOptions s s.reg.options [] = .ok os) {t : Bytes} {v : Val} (hv : (t, v) ∈ os) :
    ∃ i o, i ∈ s.reg.options ∧ s.entry i = some o ∧ describeOpt o = .ok v := by
  obtain ⟨ops, ls, h1, h2, rfl⟩ := describeOptions_both _ h
  have hs : AMap.Sorted (mergeKeys [] ls) := sorted_mergeKeys (m := []) trivial _
  rcases get_mergeKeys_any (m := []) (o := ls) (k := t) with e | ⟨x, hx, e⟩
  · rw [AMap.get_of_mem hs hv] at e; cases e
  · rw [AMap.get_of_mem hs hv] at e; cases e
    obtain ⟨o, ho, _, hd⟩ := h2.left hx
    obtain ⟨i, hi, he⟩ := h1.right ho
    exact ⟨i, o, hi, he, hd⟩

theorem argument_source {s : St} {as_ : List Val} (h : describeArguments s s.reg.arguments = .ok as_) {v : Val} (hv : v ∈ as_) :
    ∃ i o, i ∈ s.reg.arguments ∧ s.entry i = some o ∧ describeOpt o = .ok v := by
  obtain ⟨ops, h1, h2⟩ := describeArguments_both _ h
  obtain ⟨o, ho, hd⟩ := h2.left hv
  obtain ⟨i, hi, he⟩ := h1.right ho
  exact ⟨i, o, hi, he, hd⟩

theorem mapIn_get {d : Val} {k : Bytes} {e : Bytes × Val} (h : e ∈ mapIn d k) : getKey? d k = some (.map (mapIn d k)) := by
  unfold mapIn at *
  split at h
  · rename_i hd; rw [hd]
  · cases h

theorem listIn_get {d : Val} {k : Bytes} {e : Val} (h : e ∈ listIn d k) : getKey? d k = some (.list (listIn d k)) := by
  unfold listIn at *
  split at h
  · rename_i hd; rw [hd]
  · cases h

/-- Which descriptions of tidy parsers are of good form. -/
theorem tidy_description {N : Prop} {ord : List Int32 → List Int32} {P : Parser} {d : Val} (hs : Sound w P.st) (ht : Tidy PlainForm N P.st)
    (hd : getDescription ord P = .ok d) :
    DescriptionOk E d ↔ (∀ t v, (t, v) ∈ mapIn d kOptions → HasName v ∧ ChecksOk E v) ∧ ∀ v ∈ listIn d kArguments, ChecksOk E v := by
  obtain ⟨os, as_, gs, h1, h2, h3, h4, h5, h6, _⟩ := getDescription_parts hd
  obtain ⟨m, hm, hsm, hk⟩ := description_keys hd
  have hopt : ∀ {t v}, (t, v) ∈ os → (OptionOk E v ↔ HasName v ∧ ChecksOk E v) := by
    intro t v hv
    obtain ⟨i, o, _, he, ho⟩ := option_source h1 hv
    obtain ⟨D, hD, _, g1, _, g3, g4⟩ := entry_described (E := E) (hs.told i o he) (ht.forms i o he) (ht.env i o he) ho
    subst hD
    constructor
    · rintro ⟨m, e, a, b, c⟩
      cases e
      exact ⟨c, g1.1 a⟩
    · rintro ⟨a, b⟩
      exact ⟨D, rfl, g1.2 b, g3 (g4.1 a), a⟩
  have harg : ∀ {v}, v ∈ as_ → (ArgumentOk E v ↔ ChecksOk E v) := by
    intro v hv
    obtain ⟨i, o, _, he, ho⟩ := argument_source h2 hv
    obtain ⟨D, hD, _, g1, g2, _, _⟩ := entry_described (E := E) (hs.told i o he) (ht.forms i o he) (ht.env i o he) ho
    subst hD
    constructor
    · rintro ⟨m, e, a, b, c⟩
      cases e
      exact g1.1 a
    · intro b
      exact ⟨D, rfl, g1.2 b, g2.1, g2.2⟩
  have hgrp : ∀ {t v}, (t, v) ∈ gs → GroupOk v := by
    intro t v hv
    obtain ⟨x, _, _, hx⟩ := (describeGroups_both _ h3).left hv
    exact group_described hx
  constructor
  · rintro ⟨m', e, h⟩
    rw [hm] at e; cases e
    refine ⟨fun t v hv => ?_, fun v hv => ?_⟩
    · have hg := mapIn_get hv
      rw [hm] at hg
      obtain ⟨m'', e, hx⟩ := h kOptions (MapOf (OptionOk E)) (by simp) _ (get_mem_of hg)
      cases e
      rw [← hm] at hx
      exact (hopt (by rw [← h4]; exact hv)).1 (hx t v hv)
    · have hg := listIn_get hv
      rw [hm] at hg
      obtain ⟨m'', e, hx⟩ := h kArguments (fun v => ∃ xs, v = .list xs ∧ ∀ x ∈ xs, ArgumentOk E x) (by simp) _ (get_mem_of hg)
      cases e
      rw [← hm] at hx
      exact (harg (by rw [← h5]; exact hv)).1 (hx v hv)
  · rintro ⟨ho, ha⟩
    refine ⟨m, hm, fun k Q hQ v hv => ?_⟩
    have hc := hk k v (AMap.get_of_mem hsm hv)
    have htext : k ≠ kOptions → k ≠ kArguments → k ≠ kGroups → IsText v := by
      intro a b c
      rcases hc with ⟨h, _⟩ | ⟨h, _⟩ | ⟨h, _⟩ | ⟨_, _, _, h⟩
      · exact absurd h a
      · exact absurd h b
      · exact absurd h c
      · exact h
    simp only [List.mem_cons, List.not_mem_nil, or_false, Prod.mk.injEq] at hQ
    rcases hQ with ⟨rfl, rfl⟩ | ⟨rfl, rfl⟩ | ⟨rfl, rfl⟩ | ⟨rfl, rfl⟩ | ⟨rfl, rfl⟩ | ⟨rfl, rfl⟩
    · rcases hc with ⟨h, _⟩ | ⟨_, rfl⟩ | ⟨h, _⟩ | ⟨_, h, _⟩
      · exact absurd h (by decide)
      · refine ⟨_, rfl, fun v hv => (harg (by rw [← h5]; exact hv)).2 (ha v hv)⟩
      · exact absurd h (by decide)
      · exact absurd rfl h
    · exact htext (by decide) (by decide) (by decide)
    · exact htext (by decide) (by decide) (by decide)
    · rcases hc with ⟨h, _⟩ | ⟨h, _⟩ | ⟨_, rfl⟩ | ⟨_, _, h, _⟩
      · exact absurd h (by decide)
      · exact absurd h (by decide)
      · exact ⟨_, rfl, fun t v hv => hgrp (t := t) (by rw [← h6]; exact hv)⟩
      · exact absurd rfl h
    · rcases hc with ⟨_, rfl⟩ | ⟨h, _⟩ | ⟨h, _⟩ | ⟨h, _⟩
      · exact ⟨_, rfl, fun t v hv => (hopt (t := t) (by rw [← h4]; exact hv)).2 (ho t v hv)⟩
      · exact absurd h (by decide)
      · exact absurd h (by decide)
      · exact absurd rfl h
    · exact htext (by decide) (by decide) (by decide)

end Verif.Args
