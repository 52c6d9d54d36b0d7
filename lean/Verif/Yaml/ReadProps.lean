import Verif.Yaml.Eval
/-!
# C83, C84 Reading YAML
-/

namespace Verif.Yaml
open Verif Verif.JsonDrv
open Verif.Build (asString insertAll)

theorem loop_start (fo : FloatOps) (stale : Nat → Bool) (below : Bool) (fuel : Nat) (es : List YEv) :
    loop fo stale below (fuel + 1) ⟨.streamStart :: es, false⟩ B.init = loop fo stale below fuel ⟨es, false⟩ B.init :=
  loop_go fo stale below (back := false) rfl (by nofun)

/-- Any number of documents can be asked for: the next one is read, and reading stops behind it. -/
theorem parse_doc {fo : FloatOps} {Q : Bool → Prop} {stale : Nat → Bool} (hQ : ∀ n, Q (stale n)) {t v env}
    (hm : Means fo Q Rule.first [] t v env) (fuel : Nat) (below : Bool) (es : List YEv) :
    parseVariant fo stale (fuel + (docEvents t).length) ⟨⟨docEvents t ++ es, false⟩, false, below⟩ = some (⟨⟨es, false⟩, false, below⟩, .ok v) := by
  obtain ⟨as, h⟩ := loop_doc (below := below) hQ hm fuel es
  simp only [parseVariant, h, Bool.false_eq_true, if_false, Bool.false_or]

theorem deserialize_doc {fo : FloatOps} {Q : Bool → Prop} {stale : Nat → Bool} (hQ : ∀ n, Q (stale n)) {t v env}
    (hm : Means fo Q Rule.first [] t v env) (es : List YEv) :
    deserialize fo stale (.streamStart :: (docEvents t ++ es)) = some (.ok v) := by
  obtain ⟨as, h⟩ := loop_doc (below := false) hQ hm (es.length + 1) es
  simp only [deserialize, parseVariant, Parser.new, List.length_cons, Bool.false_eq_true, if_false, loop_start, List.length_append]
  rw [show (docEvents t).length + es.length + 1 = es.length + 1 + (docEvents t).length by omega, h]
  rfl

/-- C83.  The first document of a stream is read as the value it means, where every alias refers to the *first*
definition of its anchor and keys define no anchors.  `es`: whatever follows.  (`Q`: the states `errno` may be in.) -/
theorem yaml_read_first (fo : FloatOps) (Q : Bool → Prop) (stale : Nat → Bool) (hQ : ∀ n, Q (stale n)) (t : YTree) (v : Val) (env : Env)
    (hm : Means fo Q Rule.first [] t v env) (es : List YEv) :
    deserialize fo stale (.streamStart :: (docEvents t ++ es)) = some (.ok v) := deserialize_doc hQ hm es

/-- C83.  The first document of a stream is read as the value it means in YAML, if no anchor is defined twice in it and
none on a key.  Missing: those, see `anchor_redefined_false` and `key_anchor_false`. -/
theorem yaml_read_partial (fo : FloatOps) (Q : Bool → Prop) (stale : Nat → Bool) (hQ : ∀ n, Q (stale n)) (t : YTree) (v : Val) (env : Env)
    (hm : Means fo Q Rule.yaml [] t v env) (h1 : t.anchors.Nodup) (h2 : t.NoKeyAnchor) (es : List YEv) :
    deserialize fo stale (.streamStart :: (docEvents t ++ es)) = some (.ok v) :=
  deserialize_doc hQ (means_rule Rule.yaml Rule.first hm h2 (by simpa using h1)).1 es

/-- C83.  A document is read as a value only if it means that value: reading comes to `v` exactly if the document means
`v` (by the rule of `yaml_read_first`); for any other document it throws or, with binary data only, is undefined. -/
theorem yaml_read_iff (fo : FloatOps) (s : Bool) (t : YTree) (v : Val) (es : List YEv) :
    deserialize fo (fun _ => s) (.streamStart :: (docEvents t ++ es)) = some (.ok v) ↔ ∃ env, Means fo (· = s) Rule.first [] t v env := by
  constructor
  · intro h
    have hc := comes_tree (fo := fo) (s := s) (below := false) t (fs := [.root .null true]) (as := []) (res := .null) rfl
    have h0 : Gets fo (fun _ => s) false [.root .null false] [] .null [.docStart] [.root .null true] [] :=
      Gets.one (back := false) (fun _ => rfl) (by nofun)
    have h1 := Comes.bind (o := .ok ()) (f := fun _ => eval fo s [] t) (k := fun _ => ([.root .null true], [])) h0 (fun _ _ => hc)
    simp only [Out.bind_ok] at h1
    simp only [deserialize, parseVariant, Parser.new, List.length_cons, Bool.false_eq_true, if_false, loop_start, List.length_append, docEvents,
      List.length_nil, List.cons_append, List.append_assoc, List.nil_append] at h
    rw [show t.events.length + (es.length + 1) + 2 = es.length + 2 + (t.events.length + 1) by omega] at h
    cases he : eval fo s [] t with
    | ok p =>
      obtain ⟨w, as⟩ := p
      rw [he] at h1
      have h2 := h1 (es.length + 2) (.docEnd :: es)
      simp only [List.length_cons, List.singleton_append, List.cons_append, List.nil_append] at h2
      rw [B.init, h2, loop] at h
      have : w = v := by
        simp only [parse, Bool.false_eq_true, if_false, step, event, finish, Frame.result, receive, Out.bind_ok, Out.pure_eq, List.isEmpty_nil,
          if_true, Bool.true_or, Option.map_some, Option.some.injEq, Out.ok.injEq] at h
        exact h
      subst this
      obtain ⟨env, hm, _⟩ := eval_means t Agree.nil he
      exact ⟨env, hm⟩
    | throw x =>
      rw [he] at h1
      obtain ⟨r, h2⟩ := h1 (es.length + 2) (.docEnd :: es)
      simp only [List.length_cons, List.singleton_append, List.cons_append, List.nil_append] at h2
      rw [B.init, h2] at h
      cases h
    | ub =>
      rw [he] at h1
      obtain ⟨r, h2⟩ := h1 (es.length + 2) (.docEnd :: es)
      simp only [List.length_cons, List.singleton_append, List.cons_append, List.nil_append] at h2
      rw [B.init, h2] at h
      cases h
  · rintro ⟨env, hm⟩
    exact deserialize_doc (Q := (· = s)) (fun _ => rfl) hm es

/-- C83.  A document means one value only. -/
theorem means_one (fo : FloatOps) (s : Bool) (t : YTree) (v w : Val) (env env' : Env) (h1 : Means fo (· = s) Rule.first [] t v env)
    (h2 : Means fo (· = s) Rule.first [] t w env') : v = w := by
  have a := (yaml_read_iff fo s t v []).2 ⟨_, h1⟩
  rw [(yaml_read_iff fo s t w []).2 ⟨_, h2⟩] at a
  injection a with a; injection a with a; exact a.symm

/-- C84.  Whatever libyaml delivers, reading comes to an end. -/
theorem loop_ends (fo : FloatOps) (stale : Nat → Bool) (below : Bool) : ∀ (evs : List YEv) (fuel : Nat) (b : B), evs.length < fuel →
    ∃ x, loop fo stale below fuel ⟨evs, false⟩ b = some x
  | [], fuel + 1, b, _ => ⟨_, rfl⟩
  | e :: es, fuel + 1, b, h => by
    rw [loop]
    simp only [parse, Bool.false_eq_true, if_false]
    split
    · exact ⟨_, rfl⟩
    · exact ⟨_, rfl⟩
    · exact ⟨_, rfl⟩
    · split
      · split <;> exact ⟨_, rfl⟩
      · exact loop_ends fo stale below es fuel _ (by simpa using h)

theorem yaml_ends (fo : FloatOps) (stale : Nat → Bool) (evs : List YEv) : ∃ o, deserialize fo stale evs = some o := by
  obtain ⟨x, hx⟩ := loop_ends fo stale false evs (evs.length + 1) B.init (by omega)
  simp only [deserialize, parseVariant, Parser.new, Bool.false_eq_true, if_false, hx]
  obtain ⟨r, o⟩ := x
  cases o with
  | ok p => exact ⟨_, rfl⟩
  | throw => exact ⟨_, rfl⟩
  | ub => exact ⟨_, rfl⟩

/-- The events do not contain binary data that is undefined to decode. -/
def Decodes : YEv → Prop
  | .scalar _ tag _ t => tag = some binaryTag → ∃ d, B64.decode t = .ok d ∧ d.length ≤ (B64.decodeSize (UInt32.ofNat t.length)).toNat
  | _ => True

theorem asString_def (ft : UInt64 → Bytes) (v : Val) : asString ft v ≠ .ub := by
  cases v with
  | bool b => cases b <;> nofun
  | _ => nofun

theorem setTop_def (ft : UInt64 → Bytes) (b : B) (v : Val) (a : Bytes) : setTop ft b v a ≠ .ub := by
  unfold setTop
  split
  · nofun
  · rename_i f rest hf
    cases f with
    | root x s => nofun
    | list xs n => nofun
    | map m k n =>
      cases k with
      | some k => nofun
      | none =>
        simp only [setVal]
        have := asString_def ft v
        cases h : asString ft v with
        | ok k => nofun
        | throw x => nofun
        | ub => exact absurd h this

theorem finish_def (ft : UInt64 → Bytes) (b : B) : finish ft b ≠ .ub := by
  unfold finish
  split
  · nofun
  · nofun
  · exact setTop_def _ _ _ _

theorem event_def (ft : UInt64 → Bytes) (b : B) (e : AEv) : event ft b e ≠ .ub := by
  unfold event
  split
  · nofun
  · split
    · split <;> nofun
    · exact finish_def _ _
    · nofun
    · nofun
    · split
      · exact finish_def _ _
      · nofun
    · split
      · exact finish_def _ _
      · nofun
    · split
      · nofun
      · exact setTop_def _ _ _ _
    · exact setTop_def _ _ _ _

theorem step_def (fo : FloatOps) (s : Bool) (b : B) (e : YEv) (h : Decodes e) : step fo s b e ≠ .ub := by
  have tell : ∀ (a : AEv) (back : Bool), (do return After.go (← event fo.fltText b a) back : Out After) ≠ .ub := by
    intro a back hb
    have := event_def fo.fltText b a
    cases he : event fo.fltText b a with
    | ok x => rw [he] at hb; cases hb
    | throw x => rw [he] at hb; cases hb
    | ub => exact this he
  cases e with
  | noEvent => nofun
  | streamStart => nofun
  | streamEnd => nofun
  | docStart => exact tell _ _
  | docEnd => exact tell _ _
  | alias n => exact tell _ _
  | seqStart a => exact tell _ _
  | seqEnd => exact tell _ _
  | mapStart a => exact tell _ _
  | mapEnd => exact tell _ _
  | scalar a tag st t =>
    intro hb
    have hp : ∃ v, parseScalar fo s tag st t = .ok v := by
      unfold parseScalar
      split
      · rename_i ht
        obtain ⟨d, hd, hl⟩ := h ht
        refine ⟨.blob [d], ?_⟩
        rw [hd, Out.bind_ok, if_pos hl]; rfl
      · split <;> exact ⟨_, rfl⟩
    obtain ⟨v, hv⟩ := hp
    simp only [step, hv, Out.bind_ok] at hb
    exact tell _ _ hb

theorem loop_def (fo : FloatOps) (stale : Nat → Bool) : ∀ (evs : List YEv) (fuel : Nat) (b : B) (r : Rd), (∀ e ∈ evs, Decodes e) →
    loop fo stale false fuel ⟨evs, false⟩ b ≠ some (r, .ub)
  | evs, 0, b, r, _ => by nofun
  | [], fuel + 1, b, r, _ => by
    intro h; rw [loop] at h; cases h
  | e :: es, fuel + 1, b, r, h => by
    intro hl
    rw [loop] at hl
    simp only [parse, Bool.false_eq_true, if_false, Bool.not_false, Bool.or_true, if_true] at hl
    have hs := step_def fo (stale es.length) b e (h e (.head _))
    split at hl
    · cases hl
    · rename_i hu; exact hs hu
    · cases hl
    · split at hl
      · cases hl
      · exact loop_def fo stale es fuel _ r (fun x hx => h x (.tail _ hx)) hl

/-- C84.  Whatever libyaml delivers, in whatever order, reading gives a value or throws; only binary data can be
undefined.  Missing: those, see `binary_undefined_false`. -/
theorem yaml_defined_partial (fo : FloatOps) (stale : Nat → Bool) (evs : List YEv) (h : ∀ e ∈ evs, Decodes e) :
    (∃ v, deserialize fo stale evs = some (.ok v)) ∨ ∃ x, deserialize fo stale evs = some (.throw x) := by
  obtain ⟨x, hx⟩ := loop_ends fo stale false evs (evs.length + 1) B.init (by omega)
  simp only [deserialize, parseVariant, Parser.new, Bool.false_eq_true, if_false, hx]
  obtain ⟨r, o⟩ := x
  cases o with
  | ok p => exact .inl ⟨_, rfl⟩
  | throw => exact .inr ⟨_, rfl⟩
  | ub => exact absurd hx (loop_def fo stale evs _ _ r h)

/-- C84, finding: binary data with a brace is undefined behaviour, as in `Base64Decode`. -/
theorem binary_undefined_false (fo : FloatOps) (stale : Nat → Bool) (es : List YEv) :
    deserialize fo stale (.streamStart :: .docStart :: .scalar [] (some binaryTag) .plain [123] :: es) = some .ub := by
  have h : ∀ fuel, loop fo stale false (fuel + 3) ⟨.streamStart :: .docStart :: .scalar [] (some binaryTag) .plain [123] :: es, false⟩ B.init =
      some (⟨es, false⟩, .ub) := by intro fuel; rfl
  simp only [deserialize, parseVariant, Parser.new, Bool.false_eq_true, if_false, List.length_cons]
  rw [show es.length + 1 + 1 + 1 + 1 = es.length + 1 + 3 by omega, h]
  rfl

/-- C84, finding: when libyaml has reported an error, using the parser again never comes to an end: libyaml delivers no
event for ever. -/
theorem after_error_hangs (fo : FloatOps) (stale : Nat → Bool) (p : Parser) (hf : p.rd.failed = true) (he : p.eof = false) (fuel : Nat) :
    parseVariant fo stale fuel p = none := by
  have h : ∀ fuel, loop fo stale p.below fuel p.rd B.init = none := by
    intro fuel
    induction fuel with
    | zero => rfl
    | succ fuel ih =>
      rw [loop]
      simp only [parse, hf, if_true, step]
      exact ih
  simp only [parseVariant, he, Bool.false_eq_true, if_false, h]

/-- Such a state is reached: by reading a broken text. -/
theorem error_reached (fo : FloatOps) (stale : Nat → Bool) :
    ∃ p, parseVariant fo stale 3 (Parser.new [.streamStart, .docStart]) = some (p, .throw .runtime) ∧ p.rd.failed = true ∧ p.eof = false :=
  ⟨_, rfl, rfl, rfl⟩

/-- C84, finding: after an exception in the middle of a document (here an alias for an unknown anchor) the parser goes
on with the handlers of the call that has thrown, which refer to a state that is gone. -/
theorem after_exception_ub (fo : FloatOps) (stale : Nat → Bool) : ∃ p,
    parseVariant fo stale 10 (Parser.new (streamOf [.list [] [.alias [97], .scalar [] none .plain [49]]])) = some (p, .throw .outOfRange) ∧
    ∃ q, parseVariant fo stale 10 p = some (q, .ub) := by
  refine ⟨⟨⟨[.scalar [] none .plain [49], .seqEnd, .docEnd, .streamEnd], false⟩, false, true⟩, rfl,
    ⟨⟨[.seqEnd, .docEnd, .streamEnd], false⟩, false, true⟩, ?_⟩
  · cases h : stale 3 <;> simp [parseVariant, loop, parse, step, parseScalar, event, setTop, setVal, B.init, h, docEvents, YTree.events, eventsList,
      streamOf]

/-! ## Findings about meaning -/

section
abbrev one : Bytes := [49]
abbrev two : Bytes := [50]

/-- A plain scalar without anchor or tag. -/
abbrev word (t : Bytes) : YTree := .scalar [] none .plain t

/-- C83, finding: an alias refers to the first definition of an anchor, not to the latest: `[&a x, &a y, *a]` means
`[x, y, y]`, but is read as `[x, y, x]`. -/
theorem anchor_redefined_false : ∃ t v, (∀ fo, ∃ env, Means fo (fun _ => True) Rule.yaml [] t v env) ∧
    ∀ fo stale, ∃ w, deserialize fo stale (streamOf [t]) = some (.ok w) ∧ w ≠ v := by
  refine ⟨.list [] [.scalar [97] none .single [120], .scalar [97] none .single [121], .alias [97]], .list [.str [120], .str [121], .str [121]], ?_, ?_⟩
  · intro fo
    refine ⟨_, .list (.cons (.scalar (.quoted (.inl rfl))) (.cons (.scalar (.quoted (.inl rfl))) (.cons (.alias ?_) .nil)))⟩
    rfl
  · intro fo stale
    refine ⟨.list [.str [120], .str [121], .str [120]], rfl, ?_⟩
    intro h
    injection h with h
    injection h with _ h
    injection h with _ h
    injection h with h _
    injection h with h
    exact absurd h (by decide)

/-- C83, finding: an anchor on a key is not known: `{&a x: 1, y: *a}` means `{x: 1, y: x}`, but throws. -/
theorem key_anchor_false : ∃ t v, (∀ fo, ∃ env, Means fo (fun _ => True) Rule.yaml [] t v env) ∧
    ∀ fo stale, deserialize fo stale (streamOf [t]) = some (.throw .outOfRange) := by
  refine ⟨.map [] [(.scalar [97] none .single [120], .scalar [] none .single [49]), (.scalar [] none .single [121], .alias [97])],
    .map [([120], .str [49]), ([121], .str [120])], ?_, ?_⟩
  · intro fo
    refine ⟨_, .map (.cons (.scalar (.quoted (.inl rfl))) .str (.scalar (.quoted (.inl rfl)))
      (.cons (.scalar (.quoted (.inl rfl))) .str (.alias rfl) .nil)) (by simp [AMap.Sorted, AMap.above, keyLt]) ?_⟩
    intro k
    simp only [lastOf, AMap.get, List.reverse_cons, List.reverse_nil, List.nil_append, List.singleton_append, List.find?]
    by_cases h1 : k = [120]
    · subst h1; rfl
    · by_cases h2 : k = [121]
      · subst h2; rfl
      · have e1 : ([120] == k) = false := by simpa using Ne.symm h1
        have e2 : ([121] == k) = false := by simpa using Ne.symm h2
        simp [e1, e2, h1, h2, Ne.symm h1, Ne.symm h2]
  · intro fo stale; rfl

/-- "tag:yaml.org,2002:int" -/
def intTag : Bytes := [116, 97, 103, 58, 121, 97, 109, 108, 46, 111, 114, 103, 44, 50, 48, 48, 50, 58, 105, 110, 116]

/-- C83, finding: a scalar with a tag other than that for binary data is a string, whatever the tag: `!!int 1` is the
string "1". -/
theorem int_tag_false (fo : FloatOps) (stale : Nat → Bool) (st : Style) (t : Bytes) :
    deserialize fo stale (streamOf [.scalar [] (some intTag) st t]) = some (.ok (.str t)) :=
  yaml_read_first fo (fun _ => True) stale (fun _ => trivial) (.scalar [] (some intTag) st t) (.str t) _ (.scalar (.tagged (by decide))) [.streamEnd]

theorem single_map (a : Bytes) (v : Val) (k : Bytes) : AMap.get [(a, v)] k = lastOf [(a, v)] k := by
  simp only [lastOf, AMap.get, List.reverse_cons, List.reverse_nil, List.nil_append, List.find?]
  by_cases h : a = k
  · subst h; simp
  · have e : (a == k) = false := by simpa using h
    simp [e, h, Ne.symm h]

/-- C83, finding: plain keys are not the text that is written: the keys `0x10`, `010`, `1e1` are not "0x10", "010",
"1e1", and `~` and `null` are both the empty text. -/
theorem key_text_false (fo : FloatOps) (stale : Nat → Bool) :
    deserialize fo stale (streamOf [.map [] [(word [48, 120, 49, 48], word [126])]]) = some (.ok (.map [([49, 54], .null)])) ∧
    deserialize fo stale (streamOf [.map [] [(word [48, 49, 48], word [126])]]) = some (.ok (.map [([49, 48], .null)])) ∧
    deserialize fo stale (streamOf [.map [] [(word [126], .scalar [] none .single one), (word [110, 117, 108, 108], .scalar [] none .single two)]]) =
      some (.ok (.map [([], .str two)])) := by
  have e16 : natDec 16 = [49, 54] := by rw [natDec_ge (by decide), natDec_lt (by decide)]; rfl
  have e10 : natDec 10 = [49, 48] := by rw [natDec_ge (by decide), natDec_lt (by decide)]; rfl
  refine ⟨?_, ?_, rfl⟩
  · have h : deserialize fo stale (streamOf [.map [] [(word [48, 120, 49, 48], word [126])]]) = some (.ok (.map [(natDec 16, .null)])) := rfl
    rw [h, e16]
  · have h : Val.map [([49, 48], .null)] = Val.map [(natDec 10, .null)] := by rw [e10]
    rw [h]
    have hg : ∀ s, Guess.guess fo s [48, 49, 48] = .int 10 := by intro s; cases s <;> rfl
    exact yaml_read_first fo (fun _ => True) stale (fun _ => trivial) (.map [] [(word [48, 49, 48], word [126])])
      (.map [(natDec 10, .null)]) _ (.map (.cons (kv := .int 10) (.scalar (.plain (.inl rfl)
      (fun s _ => hg s))) (.int (i := 10)) (.scalar (.plain (.inl rfl) (fun _ _ => rfl))) .nil) (by simp [AMap.Sorted, AMap.above])
      (single_map _ _)) [.streamEnd]

/-- `[&a "x", {"k": *a}]` meets the conditions of `yaml_read_partial`. -/
example (fo : FloatOps) (stale : Nat → Bool) (es : List YEv) :
    deserialize fo stale (.streamStart :: (docEvents (.list [] [.scalar [97] none .double [120],
      .map [] [(.scalar [] none .double [107], .alias [97])]]) ++ es)) = some (.ok (.list [.str [120], .map [([107], .str [120])]])) := by
  refine yaml_read_partial fo (fun _ => True) stale (fun _ => trivial) _ _ _
    (.list (.cons (.scalar (.quoted (.inr (.inl rfl)))) (.cons (.map (.cons (.scalar (.quoted (.inr (.inl rfl)))) .str (.alias rfl) .nil)
      (by simp [AMap.Sorted, AMap.above]) (single_map _ _)) .nil))) ?_ ?_ es
  · simp [YTree.anchors, anchorsList, anchorsMap]
  · simp [YTree.NoKeyAnchor, NoKeyAnchorList, NoKeyAnchorMap, YTree.anchors]

/-- Events in no sensible order meet the condition of `yaml_defined_partial`. -/
example : ∀ e ∈ [YEv.docEnd, .mapEnd, .alias [97], .seqStart [], .scalar [] (some binaryTag) .plain [65, 65, 61, 61]], Decodes e := by
  intro e he
  simp only [List.mem_cons, List.not_mem_nil, or_false] at he
  rcases he with rfl | rfl | rfl | rfl | rfl
  all_goals first | trivial | exact fun _ => ⟨_, rfl, by decide⟩

end

end Verif.Yaml
