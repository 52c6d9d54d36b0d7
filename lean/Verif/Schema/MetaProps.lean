import Verif.Schema.MetaNormed
/-!
# C101-C102: the schema of schemas

`metaEntry` is what every loader starts with: the text in the source, parsed and normalised (`static_data` in
Schema/MetaParsed.lean).  `schemaValidate E metaEntry bases metaName s` is
`SchemaValidate("http://json-schema.org/draft-04/schema#", s, loader)`.
-/

namespace Verif.Schema
open Verif Loader

variable {E : Env} {bases : List Layer}

theorem outcome_accept {r : M} : outcome r = some (.ok ⟨false, false⟩) ↔ Acc r ∨ r = some (.stop false false) := by
  cases r with
  | none => simp [outcome, Acc]
  | some r => cases r <;> simp [outcome, Acc]

theorem outcome_calm {lim : Bool} {r : M} (h : Calm lim r) : ∃ e se, outcome r = some (.ok ⟨e, se⟩) ∧ ¬ (e = true ∧ se = true) ∧ (lim = false → se = false) := by
  rcases h with rfl | rfl | ⟨h, rfl⟩
  · exact ⟨false, false, rfl, by simp, fun _ => rfl⟩
  · exact ⟨true, false, rfl, by simp, fun _ => rfl⟩
  · exact ⟨false, true, rfl, by simp, fun h' => by rw [h] at h'; cases h'⟩

/-- Schemas of good form do not depend on the loader. -/
theorem proper_loader {l : Bytes → Out Val} : ∀ {n : Nat} {v : Val}, Proper { E with loader := l } n v ↔ Proper E n v
  | 0, _ => Iff.rfl
  | n + 1, v => by
    have e : Proper { E with loader := l } n = Proper E n := funext fun v => propext proper_loader
    show (∃ m, v = .map m ∧ Form _ (Proper { E with loader := l } n) m) ↔ ∃ m, v = .map m ∧ Form _ (Proper E n) m
    rw [e]
    exact ⟨fun ⟨m, h, F⟩ => ⟨m, h, F.keys, F.exclusiveMaximum, F.exclusiveMinimum⟩, fun ⟨m, h, F⟩ => ⟨m, h, F.keys, F.exclusiveMaximum, F.exclusiveMinimum⟩⟩

theorem meta_calm (hp : 64 ≤ E.p) (d : Val) :
    Calm true (V { E with loader := lookup E.p metaEntry bases (metaSchema metaUri) } 0 (metaSchema metaUri) d) := by
  generalize hE : ({ E with loader := lookup E.p metaEntry bases (metaSchema metaUri) } : Env) = E'
  have hp' : 64 ≤ E'.p := by rw [← hE]; exact hp
  have H : HasMeta E' := by rw [← hE]; exact has_meta E bases _
  have hm : metaSchema metaUri ∈ metaParts := by unfold metaParts; exact List.mem_cons_self
  generalize metaSchema metaUri = t at hm ⊢
  have := family_calm hp' (S := (· ∈ metaParts)) (meta_understood H) 101 0 t d (by decide) (by decide) hm
  exact this

theorem accepts_iff (hp : 64 ≤ E.p) {s : Val} : schemaValidate E metaEntry bases metaName s = some (.ok ⟨false, false⟩) ↔
    Acc (V { E with loader := lookup E.p metaEntry bases (metaSchema metaUri) } 0 (metaSchema metaUri) s) := by
  rw [meta_run, outcome_accept]
  constructor
  · rintro (h | h)
    · exact h
    · rcases meta_calm (bases := bases) hp s with h' | h' | ⟨_, h'⟩ <;> rw [h'] at h <;> cases h
  · exact .inl

/-- C101.  Checking a schema, or any value at all, always comes to a result: it never throws, whatever loaders the
caller has. -/
theorem check_total (hp : 64 ≤ E.p) (s : Val) :
    ∃ e se, schemaValidate E metaEntry bases metaName s = some (.ok ⟨e, se⟩) ∧ ¬ (e = true ∧ se = true) := by
  rw [meta_run]
  obtain ⟨e, se, h, h', _⟩ := outcome_calm (meta_calm (bases := bases) hp s)
  exact ⟨e, se, h, h'⟩

/-- C101.  What passes is a schema: every keyword has a value of its kind, on every level. -/
theorem accepted_proper (hp : 64 ≤ E.p) {s : Val} (h : schemaValidate E metaEntry bases metaName s = some (.ok ⟨false, false⟩)) :
    ∃ n, n ≤ 51 ∧ Proper E n s := by
  have h' := (accepts_iff hp).1 h
  have H := has_meta E bases (metaSchema metaUri)
  have key : ∀ n, 51 ≤ n → Proper { E with loader := lookup E.p metaEntry bases (metaSchema metaUri) } n s := by
    intro n hn
    generalize hE : ({ E with loader := lookup E.p metaEntry bases (metaSchema metaUri) } : Env) = E' at h' H ⊢
    have hp' : 64 ≤ E'.p := by rw [← hE]; exact hp
    exact meta_proper hp' H n 0 s (by omega) h'
  have key' : ∀ n, 51 ≤ n → Proper E n s := fun n hn => proper_loader.1 (key n hn)
  have : ∃ n, 51 ≤ n ∧ n ≤ 51 := ⟨51, Nat.le_refl _, Nat.le_refl _⟩
  obtain ⟨n, h1, h2⟩ := this
  exact ⟨n, h2, key' n h1⟩

/-- C101.  Every schema nested at most 19 deep passes.  Deeper ones may not (`deep_schema_false`). -/
theorem proper_accepted_partial (hp : 64 ≤ E.p) {n : Nat} (hn : n ≤ 19) {s : Val} (h : Proper E n s) :
    schemaValidate E metaEntry bases metaName s = some (.ok ⟨false, false⟩) := by
  refine (accepts_iff hp).2 ?_
  have H := has_meta E bases (metaSchema metaUri)
  have h' : Proper { E with loader := lookup E.p metaEntry bases (metaSchema metaUri) } n s := proper_loader.2 h
  generalize hE : ({ E with loader := lookup E.p metaEntry bases (metaSchema metaUri) } : Env) = E' at h' H ⊢
  have hp' : 64 ≤ E'.p := by rw [← hE]; exact hp
  exact proper_meta hp' H n 0 s (by omega) h'

/-- C102.  With a schema that passes, validation never reports an error in the schema, never throws and has no undefined
behaviour, whatever the data - as long as nothing is in it that the schema of schemas does not look at. -/
theorem accepted_works_partial (hp : 64 ≤ E.p) {s : Val} (h : schemaValidate E metaEntry bases metaName s = some (.ok ⟨false, false⟩))
    (hc : ∀ m, Part s (.map m) → Checked E m) (bases' : List Layer) (d : Val) :
    ∃ e, schemaValidate E metaEntry bases' s d = some (.ok ⟨e, false⟩) := by
  obtain ⟨n, hn, hP⟩ := accepted_proper hp h
  obtain ⟨m, rfl⟩ := proper_map hP
  have hch : chosenSchema E.p metaEntry bases' (.map m) d = .ok (.map m) := by
    have : namedSchema (.map m) d = .map m := by cases d <;> rfl
    unfold chosenSchema
    rw [this]
  unfold schemaValidate
  rw [hch]
  have hc' : ∀ m', Part (.map m) (.map m') → Checked { E with loader := lookup E.p metaEntry bases' (.map m) } m' :=
    fun m' hm => ⟨(hc m' hm).ref, (hc m' hm).divisibleBy, (hc m' hm).patterns, (hc m' hm).sizes, (hc m' hm).formats⟩
  have := ranked_calm (E := { E with loader := lookup E.p metaEntry bases' (.map m) }) hp
    (S := SoundN { E with loader := lookup E.p metaEntry bases' (.map m) })
    (fun t ⟨_, _, h, _⟩ => h) (fun n t => sound_understood) n (recursionLimit + 1) 0 (norm [] (.map m)) d
    (by unfold recursionLimit; omega) (by unfold recursionLimit; omega)
    ⟨_, .inr ⟨[], rfl⟩, proper_loader.2 hP, hc'⟩
  obtain ⟨e, se, h1, _, h2⟩ := outcome_calm this
  rw [h2 rfl] at h1
  exact ⟨e, h1⟩

/-! ## Documents that name their schema -/

/-- What validating without a schema does if the document names the schema of schemas. -/
theorem named_run (E : Env) (bases : List Layer) {m : List (Bytes × Val)} (hm : AMap.get m kSchema = some metaName) :
    schemaValidate E metaEntry bases .null (.map m) =
      outcome (V { E with loader := lookup E.p metaEntry bases (refTo metaUri []) } 0 (refTo metaUri []) (.map m)) := by
  have h : chosenSchema E.p metaEntry bases .null (.map m) = .ok (refTo metaUri []) := by
    have : namedSchema .null (.map m) = .map [(kRef, metaName)] := by
      show (match AMap.get m kSchema with | some r => Val.map [(kRef, r)] | none => .null) = _
      rw [hm]
    unfold chosenSchema
    rw [this]
    rfl
  have hn : norm [] (refTo metaUri []) = refTo metaUri [] := same_eq (by decide +kernel)
  unfold schemaValidate
  rw [h]
  simp only [hn]
  rfl

/-- C101.  Without a schema, a document that names the schema of schemas in its `$schema` is checked against it: what passes
is a schema. -/
theorem named_proper (hp : 64 ≤ E.p) {m : List (Bytes × Val)} (hm : AMap.get m kSchema = some metaName)
    (h : schemaValidate E metaEntry bases .null (.map m) = some (.ok ⟨false, false⟩)) : ∃ n, n ≤ 50 ∧ Proper E n (.map m) := by
  rw [named_run E bases hm, outcome_accept] at h
  have H := has_meta E bases (refTo metaUri [])
  have key : ∀ n, 50 ≤ n → Proper { E with loader := lookup E.p metaEntry bases (refTo metaUri []) } n (.map m) := by
    intro n hn
    generalize hE : ({ E with loader := lookup E.p metaEntry bases (refTo metaUri []) } : Env) = E' at h H ⊢
    have hp' : 64 ≤ E'.p := by rw [← hE]; exact hp
    rcases h with h | h
    · exact meta_proper hp' H n 1 _ (by omega) ((acc_metaRef H).1 h).2
    · have hm : refTo metaUri [] ∈ metaParts := by unfold metaParts; exact .tail _ (.tail _ (.tail _ (.head _)))
      rcases family_calm hp' (S := (· ∈ metaParts)) (meta_understood H) 101 0 (refTo metaUri []) (.map m) (by decide) (by decide) hm with h' | h' | ⟨_, h'⟩ <;>
        (have := h'.symm.trans h; cases this)
  have : ∃ n, 50 ≤ n ∧ n ≤ 50 := ⟨50, Nat.le_refl _, Nat.le_refl _⟩
  obtain ⟨n, h1, h2⟩ := this
  exact ⟨n, h2, proper_loader.1 (key n h1)⟩

/-- C101.  And every schema nested at most 19 deep passes. -/
theorem proper_named_partial (hp : 64 ≤ E.p) {n : Nat} (hn : n ≤ 19) {m : List (Bytes × Val)} (hm : AMap.get m kSchema = some metaName)
    (h : Proper E n (.map m)) : schemaValidate E metaEntry bases .null (.map m) = some (.ok ⟨false, false⟩) := by
  rw [named_run E bases hm, outcome_accept]
  have H := has_meta E bases (refTo metaUri [])
  have h' : Proper { E with loader := lookup E.p metaEntry bases (refTo metaUri []) } n (.map m) := proper_loader.2 h
  generalize hE : ({ E with loader := lookup E.p metaEntry bases (refTo metaUri []) } : Env) = E' at h' H ⊢
  have hp' : 64 ≤ E'.p := by rw [← hE]; exact hp
  exact .inl ((acc_metaRef H).2 ⟨by omega, proper_meta hp' H n 1 _ (by omega) h'⟩)

end Verif.Schema
