import Verif.Bundle.Props
/-!
# Examples for C71-C76, and values a bundle header does not carry
-/

namespace Verif.Bundle
open Verif Verif.JsonDrv
open Verif.Guess (Blank)

/-- " a : x y # note", newline, "just words", newline, "b:1|2", newline, "a:z|", newline, "c:9" without newline -/
def exText : Bytes :=
  [32, 97, 32, 58, 32, 120, 32, 121, 32, 35, 32, 110, 111, 116, 101, 10,
   106, 117, 115, 116, 32, 119, 111, 114, 100, 115, 10,
   98, 58, 49, 124, 50, 10,
   97, 58, 122, 124, 10,
   99, 58, 57]

/-- The hypotheses of `header_read` for it. -/
example : ∃ ls rest fs, Lines exText ls rest ∧ Fields ls fs ∧
    fs = [([97], [120, 32, 121, 32]), ([98], [49, 124, 50]), ([97], [122, 124])] ∧ rest = [99, 58, 57] := by
  refine ⟨[exText.take 15, (exText.drop 16).take 10, [98, 58, 49, 124, 50], [97, 58, 122, 124]], [99, 58, 57], _,
    ⟨by decide, by decide, by decide⟩, allFields_fields _, by decide, rfl⟩

/-- What is read: the last `a` counts, words without a colon are passed over. -/
example (fo : FloatOps) : deserialize fo (fun _ => false) memory 50 exText =
    some (.ok (.map [([97], .list [.str [122]]), ([98], .list [.int 1, .int 2])])) := by rfl

/-- C71 does not hold for a last line without a newline: "a: 1", newline, "b: 2" is read as a map with `a` only. -/
theorem last_line_false (fo : FloatOps) :
    deserialize fo (fun _ => false) memory 50 [97, 58, 32, 49, 10, 98, 58, 32, 50] = some (.ok (.map [([97], .int 1)])) := by rfl

/-- A blank behind the bar makes a list of one a scalar: "a: x|" is a list, "a: x| " is not. -/
theorem bar_blank_false (fo : FloatOps) :
    deserialize fo (fun _ => false) memory 50 [97, 58, 32, 120, 124, 10] = some (.ok (.map [([97], .list [.str [120]])])) ∧
    deserialize fo (fun _ => false) memory 50 [97, 58, 32, 120, 124, 32, 10] = some (.ok (.map [([97], .str [120])])) :=
  ⟨by rfl, by rfl⟩

/-- Reading through a buffer of four bytes. -/
example (fo : FloatOps) : ∃ N, ∀ fuel ≥ N, deserialize fo (fun _ => false) stream fuel (IO.SIn.init 4 exText) =
    deserialize fo (fun _ => false) memory fuel exText :=
  header_from_file_partial fo _ exText 4 (by decide) (by decide)

/-! ## Writing -/

/-- `{"n": 5, "t": ["x", "y z"], "w": "hello"}` -/
def exMap : List (Bytes × Val) :=
  [([110], .int 5), ([116], .list [.str [120], .str [121, 32, 122]]), ([119], .str [104, 105])]

/-- What is written for it. -/
example (ff : UInt64 → Bytes) : headerText ff (.map (exMap.drop 1)) =
    some (versionText ++ [116, 58, 32, 120, 124, 121, 32, 122, 124, 10, 119, 58, 32, 104, 105, 10]) := by rfl

/-- Maps in maps, lists in lists, blobs and single scalars are refused. -/
example (ff : UInt64 → Bytes) : serialize ff (.map [([97], .map [])]) = none ∧ serialize ff (.map [([97], .list [.list []])]) = none ∧
    serialize ff (.map [([97], .blob [])]) = none ∧ serialize ff (.int 1) = none ∧ serialize ff (.list []) = none := by
  simp only [header_written]
  exact ⟨rfl, rfl, rfl, rfl, rfl⟩

theorem goodKey_one {c : UInt8} (h : (c ≠ 58 ∧ c ≠ 32 ∧ c ≠ 9 ∧ c ≠ 35 ∧ c ≠ 10 ∧ c ≠ 0) ∧ isSpace c = false) : GoodKey [c] := by
  refine ⟨fun x hx => ?_, fun x hx => ?_, by simp [versionKey]⟩
  · rw [List.mem_singleton.1 hx]; exact h.1
  · cases hx; exact h.2

theorem wordy_of (fo : FloatOps) (s : Bytes) (h0 : 0 ∉ s) (h : Guess.guess fo false s = .str s) : Wordy s :=
  ((Guess.guess_string_iff fo false h0 s).1 h).2

theorem exPlain (fo : FloatOps) : ∀ p ∈ exMap.drop 1, GoodKey p.1 ∧ Plain p.2 := by
  intro p hp
  simp only [exMap, List.drop_succ_cons, List.drop_zero, List.mem_cons, List.not_mem_nil, or_false] at hp
  rcases hp with rfl | rfl
  · refine ⟨goodKey_one (by decide), .list (ss := [[120], [121, 32, 122]]) ?_ ?_⟩
    · intro s hs
      simp only [List.mem_cons, List.not_mem_nil, or_false] at hs
      rcases hs with rfl | rfl
      · exact ⟨by unfold GoodText; decide, by decide, wordy_of fo _ (by decide) rfl⟩
      · exact ⟨by unfold GoodText; decide, by decide, wordy_of fo _ (by decide) rfl⟩
    · intro s c h1 h2
      cases h1; cases h2; rfl
  · exact ⟨goodKey_one (by decide), .str (by unfold GoodText; decide) (fun c h => by cases h; rfl) (fun c h => by cases h; rfl)
      (wordy_of fo _ (by decide) rfl)⟩

/-- The hypotheses of `plain_round_trip` hold for the strings among them, those of `header_round_trip_partial` for all. -/
example (ff : UInt64 → Bytes) (fo : FloatOps) : AMap.Sorted exMap ∧ (∀ p ∈ exMap.drop 1, GoodKey p.1 ∧ Plain p.2) ∧
    ∀ p ∈ exMap, GoodKey p.1 ∧ GoodMember ff p.2 := by
  refine ⟨by simp [exMap, AMap.Sorted, AMap.above]; try decide, exPlain fo, ?_⟩
  intro p hp
  rcases List.mem_cons.1 (show p ∈ ([110], Val.int 5) :: exMap.drop 1 from hp) with rfl | hp
  · exact ⟨goodKey_one (by decide), (scalars_good ff true 5 0).2.2.1⟩
  · obtain ⟨h1, h2⟩ := exPlain fo p hp
    exact ⟨h1, (plain_good ff h2).1⟩

/-! ## What does not come back -/

/-- Written and read. -/
def there (ff : UInt64 → Bytes) (fo : FloatOps) (v : Val) : Option (Out Val) :=
  match serialize ff v with
  | none => none
  | some out => deserialize fo (fun _ => false) memory 100 out

/-- A newline in a string adds a member: `{"a": "1\nb: 2"}` is read as `{"a": 1, "b": 2}`. -/
theorem newline_adds_member_false (ff : UInt64 → Bytes) (fo : FloatOps) :
    there ff fo (.map [([97], .str [49, 10, 98, 58, 32, 50])]) = some (.ok (.map [([97], .int 1), ([98], .int 2)])) := by rfl

/-- Text behind a `#` is lost: `{"a": "x#y"}` is read as `{"a": "x"}`. -/
theorem hash_cuts_false (ff : UInt64 → Bytes) (fo : FloatOps) :
    there ff fo (.map [([97], .str [120, 35, 121])]) = some (.ok (.map [([97], .str [120])])) := by rfl

/-- Empty strings in lists are lost: `{"a": ["", "x"]}` is read as `{"a": ["x"]}`. -/
theorem empty_item_lost_false (ff : UInt64 → Bytes) (fo : FloatOps) :
    there ff fo (.map [([97], .list [.str [], .str [120]])]) = some (.ok (.map [([97], .list [.str [120]])])) := by rfl

/-- A bar in a string makes a list: `{"a": "x|y"}` is read as `{"a": ["x", "y"]}`. -/
theorem bar_makes_list_false (ff : UInt64 → Bytes) (fo : FloatOps) :
    there ff fo (.map [([97], .str [120, 124, 121])]) = some (.ok (.map [([97], .list [.str [120], .str [121]])])) := by rfl

/-- A member called `bundle.version` is lost. -/
theorem version_lost_false (ff : UInt64 → Bytes) (fo : FloatOps) :
    there ff fo (.map [(versionKey, .str [120])]) = some (.ok (.map [])) := by rfl

/-- A colon in a key moves text to the value: `{"a:b": "c"}` is read as `{"a": "b: c"}`. -/
theorem colon_in_key_false (ff : UInt64 → Bytes) (fo : FloatOps) :
    there ff fo (.map [([97, 58, 98], .str [99])]) = some (.ok (.map [([97], .str [98, 58, 32, 99])])) := by rfl

/-- Null, `true` and `"12"` come back as `""`, 1 and 12. -/
theorem types_change_false (ff : UInt64 → Bytes) (fo : FloatOps) :
    there ff fo (.map [([97], .null), ([98], .bool true), ([99], .str [49, 50])]) =
      some (.ok (.map [([97], .str []), ([98], .int 1), ([99], .int 12)])) := by rfl

/-! ## Guessing the format -/

/-- " \n<a/>" is XML, "{}" is YAML. -/
example : guessFormat memory 10 [32, 10, 60, 97, 47, 62] = some ([32, 10, 60, 97, 47, 62], .format .xml) ∧
    guessFormat memory 10 [123, 125] = some ([123, 125], .format .yaml) :=
  ⟨(guess_format_partial [32, 10] (by unfold Blank; decide) 60 rfl [97, 47, 62]).1 10 (by decide),
   (guess_format_partial [] nofun 123 rfl [125]).1 10 (by decide)⟩

/-- Two blanks. -/
example : guessFormat memory 10 [32, 32] = some ([32, 32], .readsOutside) :=
  guess_blank_false [32, 32] (by unfold Blank; decide) (by decide) 10 (by decide)

end Verif.Bundle
