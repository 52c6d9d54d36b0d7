import Verif.Bundle.Round
/-!
# C71-C75 Bundle headers; C76 Guessing the format

C71 what a header says; C72 reading from a file; C73 what is written; C74 writing and reading back; C75 plain text is kept.
-/

namespace Verif.Bundle
open Verif Verif.JsonDrv
open Verif.Guess (Blank intOf)

/-- C71.  A bundle header is read as the map its fields describe: every line that ends with a newline is a field or is
passed over, of several fields with the same key the last counts, and nothing is an error.  No bytes at all are read as
null. -/
theorem header_read (fo : FloatOps) (stale : Nat → Bool) {content : Bytes} {ls : List Bytes} {rest : Bytes}
    {fs : List (Bytes × Bytes)} (hl : Lines content ls rest) (hf : Fields ls fs) :
    ∃ v N, (∀ fuel ≥ N, deserialize fo stale memory fuel content = some (.ok v)) ∧
      if content = [] then v = .null else ∃ m, v = .map m ∧ Describes fo fs m := by
  obtain ⟨v, h1, h2⟩ := deserialize_spec fo stale (memory_serves (content.length + 4096)) (s := content) ⟨rfl, Nat.zero_le _⟩ hl (Nat.le_refl _)
  rw [fields_unique hf]
  exact ⟨v, _, h1, h2⟩

theorem exists_lines (content : Bytes) : ∃ ls rest, Lines content ls rest := by
  induction content with
  | nil => exact ⟨[], [], rfl, nofun, nofun⟩
  | cons c r ih =>
    obtain ⟨ls, rest, h1, h2, h3⟩ := ih
    by_cases hc : c = 10
    · refine ⟨[] :: ls, rest, by rw [hc, h1]; rfl, ?_, h3⟩
      intro l hl
      rcases List.mem_cons.1 hl with rfl | hl
      · nofun
      · exact h2 l hl
    · cases ls with
      | nil =>
        refine ⟨[], c :: rest, by rw [h1]; rfl, nofun, ?_⟩
        simp only [List.mem_cons, not_or]
        exact ⟨fun e => hc e.symm, h3⟩
      | cons l ls =>
        refine ⟨(c :: l) :: ls, rest, by rw [h1]; rfl, ?_, h3⟩
        intro x hx
        rcases List.mem_cons.1 hx with rfl | hx
        · simp only [List.mem_cons, not_or]
          exact ⟨fun e => hc e.symm, h2 l (by simp)⟩
        · exact h2 x (by simp [hx])

/-- C71.  Every text has its lines and fields, and they are determined: `header_read` speaks about all texts. -/
theorem header_fields (content : Bytes) : ∃ ls rest fs, Lines content ls rest ∧ Fields ls fs ∧
    (∀ fs', Fields ls fs' → fs' = fs) := by
  obtain ⟨ls, rest, h⟩ := exists_lines content
  exact ⟨ls, rest, _, h, allFields_fields ls, fun _ h => fields_unique h⟩

/-- C71.  A line is at most one field. -/
theorem field_unique {line k v k' v' : Bytes} (h : Field line k v) (h' : Field line k' v') : k = k' ∧ v = v' := by
  have h1 := (scanLine_iff _ _ _).2 h
  rw [(scanLine_iff _ _ _).2 h'] at h1
  cases h1
  exact ⟨rfl, rfl⟩

theorem double_lt {a : Nat} (h : a < 2 ^ 31) : 2 * a < 2 ^ 32 := by omega

/-- C72.  Reading the same bytes from a file or stream, through a buffer of any size, gives the same result as reading
them from memory.  Missing: header and buffer of 2^31 - 4096 bytes and more (`unsigned` sums). -/
theorem header_from_file_partial (fo : FloatOps) (stale : Nat → Bool) (content : Bytes) (bufLen : Nat) (hb : 0 < bufLen)
    (h31 : bufLen + content.length + 4096 < 2 ^ 31) :
    ∃ N, ∀ fuel ≥ N, deserialize fo stale stream fuel (IO.SIn.init bufLen content) = deserialize fo stale memory fuel content := by
  obtain ⟨ls, rest, hl⟩ := exists_lines content
  refine ⟨content.length + cost (allFields ls) + 2, fun fuel hf => ?_⟩
  have hM : 2 * (bufLen + content.length + 4096) < 2 ^ 32 := double_lt h31
  have h1 := run_start (stream_serves hM) (ls := ls) (s := IO.SIn.init bufLen content)
    (lineFuel := fuel) ⟨IO.Inv.init hb (by omega) content, Nat.zero_le _⟩ hl (by omega) (by omega) fuel (by omega)
  have h2 := run_start (memory_serves (content.length + 4096)) (ls := ls) (s := content) (lineFuel := fuel)
    ⟨rfl, Nat.zero_le _⟩ hl (by omega) (by omega) fuel (by omega)
  rw [deserialize, deserialize, h1, h2]

/-- C73.  What is written is the version and a line for every member, in key order; a value that is not a map of scalars
and lists of scalars is refused. -/
theorem header_written (ff : UInt64 → Bytes) (v : Val) : serialize ff v = headerText ff v := serialize_text ff v

/-- C73.  Beginning and ending the document oneself writes the same header. -/
theorem header_document (ff : UInt64 → Bytes) (v : Val) :
    (emits ff .start (.beginDoc :: (Event.valTree v).calls ++ [.endDoc])).map (·.2) = headerText ff v := by
  rw [← header_written]
  cases v with
  | map m =>
    simp only [serialize, Event.valTree, Event.Tree.calls, List.cons_append, emits, emit, if_true]
    cases emits ff .key (Event.callsPairs (Event.valPairs m) ++ [.endMap] ++ [.endDoc]) <;> simp
  | bool b => cases b <;> rfl
  | _ => rfl

/-- C74.  A map whose keys and texts have none of the signs of the format is written and read back with the same
keys, every scalar as the scalar guessed from its text and lists as lists of the same length and order.  Missing: the
values `GoodMember` leaves out, which do change (see `Verif/Bundle/Examples.lean`). -/
theorem header_round_trip_partial (ff : UInt64 → Bytes) (fo : FloatOps) (stale : Nat → Bool) {m : List (Bytes × Val)}
    (hs : AMap.Sorted m) (hm : ∀ p ∈ m, GoodKey p.1 ∧ GoodMember ff p.2) :
    ∃ out m', serialize ff (.map m) = some out ∧ (∃ N, ∀ fuel ≥ N, deserialize fo stale memory fuel out = some (.ok (.map m'))) ∧
      AMap.Sorted m' ∧ ∀ k, (AMap.get m k = none → AMap.get m' k = none) ∧
        ∀ x, AMap.get m k = some x → ∃ y, AMap.get m' k = some y ∧ ReadBack ff fo x y :=
  round_doc ff fo stale hs hm

theorem int_good (i : Int) : GoodText (if i < 0 then 45 :: natDec i.natAbs else natDec i.natAbs) ∧
    (∀ c ∈ (if i < 0 then 45 :: natDec i.natAbs else natDec i.natAbs), isSpace c = false) ∧
    (if i < 0 then 45 :: natDec i.natAbs else natDec i.natAbs) ≠ [] := by
  have hd : ∀ n, ∀ c ∈ natDec n, isDigit c = true := fun n => natDec_all_digits n
  have h1 : ∀ c : UInt8, isDigit c = true → (c ≠ 124 ∧ c ≠ 35 ∧ c ≠ 10 ∧ c ≠ 0) ∧ isSpace c = false := by
    intro c hc
    refine ⟨⟨?_, ?_, ?_, ?_⟩, Guess.digit_noBlank hc⟩ <;> (rintro rfl; cases hc)
  have h2 : (45 : UInt8) ≠ 124 ∧ (45 : UInt8) ≠ 35 ∧ (45 : UInt8) ≠ 10 ∧ (45 : UInt8) ≠ 0 := by decide
  split
  · refine ⟨?_, ?_, by simp⟩
    · intro c hc
      rcases List.mem_cons.1 hc with rfl | hc
      · exact h2
      · exact (h1 c (hd _ c hc)).1
    · intro c hc
      rcases List.mem_cons.1 hc with rfl | hc
      · rfl
      · exact (h1 c (hd _ c hc)).2
  · exact ⟨fun c hc => (h1 c (hd _ c hc)).1, fun c hc => (h1 c (hd _ c hc)).2, natDec_ne_nil _⟩

/-- C74.  Null, truth values and integers can always be written. -/
theorem scalars_good (ff : UInt64 → Bytes) (b : Bool) (i : Int64) (u : UInt64) :
    GoodMember ff .null ∧ GoodMember ff (.bool b) ∧ GoodMember ff (.int i) ∧ GoodMember ff (.uint u) := by
  refine ⟨.scalar rfl nofun nofun nofun, ?_, ?_, ?_⟩
  · cases b
    · exact .scalar (t := [48]) rfl (by unfold GoodText; decide) (fun c h => by cases h; rfl) (fun c h => by cases h; rfl)
    · exact .scalar (t := [49]) rfl (by unfold GoodText; decide) (fun c h => by cases h; rfl) (fun c h => by cases h; rfl)
  · obtain ⟨h1, h2, _⟩ := int_good i.toInt
    exact .scalar rfl h1 (fun c h => h2 c (List.mem_of_mem_head? h)) (fun c h => h2 c (List.mem_of_getLast? h))
  · have hn : scalarText ff (.uint u) = some (if (u.toNat : Int) < 0 then 45 :: natDec (u.toNat : Int).natAbs else natDec (u.toNat : Int).natAbs) := by
      rw [if_neg (by omega)]; rfl
    obtain ⟨h1, h2, _⟩ := int_good u.toNat
    exact .scalar hn h1 (fun c h => h2 c (List.mem_of_mem_head? h)) (fun c h => h2 c (List.mem_of_getLast? h))

/-- C74.  How scalars come back: integers keep their value, truth values are 1 and 0, null is the empty string. -/
theorem read_back_partial (ff : UInt64 → Bytes) (fo : FloatOps) (y : Val) :
    (ReadBack ff fo .null y → y = .str []) ∧
    (∀ b, ReadBack ff fo (.bool b) y → intOf y = some (if b then 1 else 0)) ∧
    (∀ i, ReadBack ff fo (.int i) y → intOf y = some i.toInt) ∧
    (∀ u, ReadBack ff fo (.uint u) y → intOf y = some (u.toNat : Int)) ∧
    (∀ s, 0 ∉ s → Wordy s → ReadBack ff fo (.str s) y → y = .str s) := by
  refine ⟨?_, ?_, ?_, ?_, ?_⟩
  · rintro (⟨h1, st, rfl⟩)
    cases h1; rfl
  · intro b h
    cases h with
    | scalar h1 h2 =>
      obtain ⟨st, rfl⟩ := h2
      have := (Guess.guess_printed fo st).1
      cases b <;> cases h1
      · have := this 0 (by decide)
        rw [natDec_lt (by omega)] at this
        exact this
      · have := this 1 (by decide)
        rw [natDec_lt (by omega)] at this
        exact this
  · intro i h
    cases h with
    | scalar h1 h2 =>
      obtain ⟨st, rfl⟩ := h2
      cases h1
      have h3 := Int64.toInt_lt i
      have h4 := Int64.le_toInt i
      by_cases hneg : i.toInt < 0
      · rw [if_pos hneg, (Guess.guess_printed fo st).2 _ (by omega)]
        congr 1; omega
      · rw [if_neg hneg, (Guess.guess_printed fo st).1 _ (by omega)]
        congr 1; omega
  · intro u h
    cases h with
    | scalar h1 h2 =>
      obtain ⟨st, rfl⟩ := h2
      cases h1
      exact (Guess.guess_printed fo st).1 _ u.toNat_lt
  · intro s h0 hw h
    cases h with
    | scalar h1 h2 =>
      obtain ⟨st, rfl⟩ := h2
      cases h1
      rw [upToNul, Guess.takeWhile_noNul h0]
      exact (Guess.guess_string_iff fo st h0 s).2 ⟨rfl, hw⟩

theorem allSome_strs (ff : UInt64 → Bytes) {ss : List Bytes} (h : ∀ s ∈ ss, GoodText s) :
    allSome ((ss.map Val.str).map (scalarText ff)) = some ss := by
  induction ss with
  | nil => rfl
  | cons s ss ih =>
    have hs : scalarText ff (.str s) = some s := by
      simp only [scalarText]
      rw [noNul_upTo fun x hx => (h s (by simp) x hx).2.2.2]
    simp only [List.map_cons, hs, allSome]
    rw [ih fun t ht => h t (by simp [ht])]
    rfl

theorem plain_good (ff : UInt64 → Bytes) {x : Val} (h : Plain x) : GoodMember ff x ∧ ∀ fo y, ReadBack ff fo x y → y = x := by
  cases h with
  | @str s h1 h2 h3 h4 =>
    have h0 : 0 ∉ s := fun h => (h1 0 h).2.2.2 rfl
    have hs : scalarText ff (.str s) = some s := by
      simp only [scalarText]
      rw [noNul_upTo fun x hx => (h1 x hx).2.2.2]
    exact ⟨.scalar hs h1 h2 h3, fun fo y hy => (read_back_partial ff fo y).2.2.2.2 s h0 h4 hy⟩
  | @list ss h1 h2 =>
    have ha := allSome_strs ff fun s hs => (h1 s hs).1
    refine ⟨.list ha (fun t ht => ⟨(h1 t ht).1, (h1 t ht).2.1⟩) h2, fun fo y hy => ?_⟩
    cases hy with
    | scalar h3 _ => cases h3
    | @list xs ts ys h3 h4 =>
      rw [ha] at h3
      cases h3
      congr 1
      clear ha h2
      induction h4 with
      | nil => rfl
      | @cons t v ts vs hv _ ih =>
        obtain ⟨st, rfl⟩ := hv
        obtain ⟨g1, _, g3⟩ := h1 t (by simp)
        have h0 : 0 ∉ t := fun h => (g1 0 h).2.2.2 rfl
        rw [(Guess.guess_string_iff fo st h0 t).2 ⟨rfl, g3⟩, List.map_cons, ih fun s hs => h1 s (by simp [hs])]

/-- C75.  A map of strings and lists of strings that have none of the signs of the format and do not look like other
scalars is written and read back unchanged. -/
theorem plain_round_trip (ff : UInt64 → Bytes) (fo : FloatOps) (stale : Nat → Bool) {m : List (Bytes × Val)}
    (hs : AMap.Sorted m) (hm : ∀ p ∈ m, GoodKey p.1 ∧ Plain p.2) :
    ∃ out, serialize ff (.map m) = some out ∧ ∃ N, ∀ fuel ≥ N, deserialize fo stale memory fuel out = some (.ok (.map m)) := by
  obtain ⟨out, m', h1, h2, h3, h4⟩ := round_doc ff fo stale hs fun p hp => ⟨(hm p hp).1, (plain_good ff (hm p hp).2).1⟩
  have he : m' = m := by
    refine AMap.ext h3 hs fun k => ?_
    cases hk : AMap.get m k with
    | none => exact (h4 k).1 hk
    | some x =>
      obtain ⟨y, h5, h6⟩ := (h4 k).2 x hk
      rw [h5, (plain_good ff (hm _ (AMap.get_mem hk)).2).2 fo y h6]
  rw [he] at h2
  exact ⟨out, h1, h2⟩

/-! ## Guessing the format -/

variable {σ : Type} {I : Input σ} {M : Nat} {R : Bytes → Nat → σ → Prop}

/-- What the beginning of a text suggests. -/
def answer (rem : Bytes) : Guessed :=
  match rem.dropWhile isSpace with
  | [] => .readsOutside
  | c :: _ => .format (if c = 60 then .xml else .yaml)

theorem guessLoop_spec (hI : Serves I M R) : ∀ (fuel : Nat) (s : σ) (v : Bytes) (i : Nat) (rem : Bytes), R rem v.length s →
    v <+: rem → i ≤ v.length → Blank (rem.take i) → rem.length - i < fuel → rem.length + 1 ≤ M → rem ≠ [] →
    ∃ s' avail, R rem avail s' ∧ guessLoop I fuel s v i = some (s', answer rem) := by
  intro fuel
  induction fuel with
  | zero => intro s v i rem _ _ _ _ h; omega
  | succ fuel ih =>
    intro s v i rem hR hp hi hb hf hM hne
    rw [guessLoop]
    -- looking at the bytes `w`
    have look : ∀ (s : σ) (w : Bytes), R rem w.length s → w <+: rem → (i < w.length ∨ w = rem) → i ≤ w.length →
        ∃ s' avail, R rem avail s' ∧ (match w[i]? with
          | none => some (s, Guessed.readsOutside)
          | some c => if isSpace c = false then some (s, .format (if c = 60 then .xml else .yaml))
            else guessLoop I fuel s w (i + 1)) = some (s', answer rem) := by
      intro s w hR hw hor hiw
      have hdrop : rem.dropWhile isSpace = (rem.drop i).dropWhile isSpace := by
        conv => lhs; rw [← List.take_append_drop i rem]
        exact Guess.dropWhile_blank hb _
      cases hc : w[i]? with
      | none =>
        have hge := List.getElem?_eq_none_iff.1 hc
        rcases hor with h | h
        · omega
        · subst h
          refine ⟨s, _, hR, ?_⟩
          rw [answer, hdrop, List.drop_of_length_le hge]
          rfl
      | some c =>
        have hlt : i < w.length := (List.getElem?_eq_some_iff.1 hc).1
        obtain ⟨r, hr⟩ := hw
        have hrem : rem.drop i = c :: rem.drop (i + 1) := by
          have h1 : rem[i]? = some c := by rw [← hr, List.getElem?_append_left hlt]; exact hc
          obtain ⟨h2, h3⟩ := List.getElem?_eq_some_iff.1 h1
          rw [List.drop_eq_getElem_cons h2, h3]
        dsimp only
        by_cases hsp : isSpace c = false
        · rw [if_pos hsp]
          refine ⟨s, _, hR, ?_⟩
          rw [answer, hdrop, hrem]
          simp [List.dropWhile, hsp]
        · rw [if_neg hsp]
          have hlr : w.length ≤ rem.length := by rw [← hr]; simp
          refine ih s w (i + 1) rem hR ⟨r, hr⟩ (by omega) ?_ (by omega) hM hne
          intro x hx
          have h4 : rem.take (i + 1) = rem.take i ++ [c] := by
            have h1 : rem[i]? = some c := by rw [← hr, List.getElem?_append_left hlt]; exact hc
            rw [List.take_add_one, h1]; rfl
          rw [h4] at hx
          rcases List.mem_append.1 hx with hx | hx
          · exact hb x hx
          · rw [List.mem_singleton.1 hx]; simpa using hsp
    dsimp only
    by_cases hge : i ≥ v.length
    · rw [if_pos hge]
      have hvr : v.length ≤ rem.length := hp.length_le
      obtain ⟨s1, w, h1, h2, h3, h4, h5⟩ := hI.get (n := i + 1) hR (by omega)
      rw [h1]
      cases w with
      | nil =>
        rcases h4 with h4 | h4
        · simp at h4
        · exact absurd h4.symm hne
      | cons b w =>
        dsimp only
        refine look s1 (b :: w) h2 h3 ?_ (by omega)
        rcases h4 with h4 | h4
        · exact .inl (by omega)
        · exact .inr h4
    · rw [if_neg hge]
      exact look s v hR hp (.inl (by omega)) hi

theorem guessFormat_spec (hI : Serves I M R) {s : σ} {rem : Bytes} {avail : Nat} (hR : R rem avail s) (hM : rem.length + 1 ≤ M)
    {fuel : Nat} (hf : rem.length < fuel) (hne : rem ≠ []) :
    ∃ s' avail', R rem avail' s' ∧ guessFormat I fuel s = some (s', answer rem) := by
  obtain ⟨s1, v, h1, h2, h3, h4, _⟩ := hI.get (n := 0) hR (by omega)
  rw [guessFormat, h1]
  cases v with
  | nil =>
    rcases h4 with h4 | h4
    · simp at h4
    · exact absurd h4.symm hne
  | cons b w => exact guessLoop_spec hI fuel s1 (b :: w) 0 rem h2 h3 (by omega) (by intro x h; simp at h) (by omega) hM hne

/-- C76.  For a text with something other than blanks, the first such byte decides: `<` means XML, anything else YAML.
The whole text is still there to be parsed, in memory or behind a buffer of any size.  Missing: texts of blanks only
(`guess_blank_false`). -/
theorem guess_format_partial (blanks : Bytes) (hb : Blank blanks) (c : UInt8) (hc : isSpace c = false) (r : Bytes) :
    (∀ fuel > (blanks ++ c :: r).length, guessFormat memory fuel (blanks ++ c :: r) =
      some (blanks ++ c :: r, .format (if c = 60 then .xml else .yaml))) ∧
    (∀ bufLen > 0, bufLen + (blanks ++ c :: r).length + 1 < 2 ^ 31 → ∀ fuel > (blanks ++ c :: r).length, ∃ s',
      guessFormat stream fuel (IO.SIn.init bufLen (blanks ++ c :: r)) = some (s', .format (if c = 60 then .xml else .yaml)) ∧
      s'.view ++ s'.rest = blanks ++ c :: r) := by
  have ha : answer (blanks ++ c :: r) = .format (if c = 60 then .xml else .yaml) := by
    rw [answer, Guess.dropWhile_blank hb]
    simp [List.dropWhile, hc]
  constructor
  · intro fuel hf
    obtain ⟨s', _, ⟨rfl, _⟩, h⟩ := guessFormat_spec (memory_serves ((blanks ++ c :: r).length + 1)) (s := blanks ++ c :: r)
      (rem := blanks ++ c :: r) (avail := 0) ⟨rfl, Nat.zero_le _⟩ (Nat.le_refl _) hf (by simp)
    rw [h, ha]
  · intro bufLen h0 hM fuel hf
    obtain ⟨s', _, ⟨hi, _⟩, h⟩ := guessFormat_spec (stream_serves (M := bufLen + (blanks ++ c :: r).length + 1) (by omega))
      (s := IO.SIn.init bufLen (blanks ++ c :: r)) (rem := blanks ++ c :: r) (avail := 0)
      ⟨IO.Inv.init h0 (by omega) _, Nat.zero_le _⟩ (by omega) hf (by simp)
    exact ⟨s', by rw [h, ha], hi.rem_eq.symm⟩

/-- C76 is false for blanks only: every such text makes the guess look at bytes behind its end. -/
theorem guess_blank_false (blanks : Bytes) (hb : Blank blanks) (hne : blanks ≠ []) :
    ∀ fuel > blanks.length, guessFormat memory fuel blanks = some (blanks, .readsOutside) := by
  intro fuel hf
  obtain ⟨s', _, ⟨hs, _⟩, h⟩ := guessFormat_spec (memory_serves (blanks.length + 1)) (s := blanks) (rem := blanks) (avail := 0)
    ⟨rfl, Nat.zero_le _⟩ (Nat.le_refl _) hf hne
  have ha : answer blanks = .readsOutside := by
    have := Guess.dropWhile_blank hb []
    rw [List.append_nil] at this
    rw [answer, this]; rfl
  rw [h, ha, hs]

end Verif.Bundle
