import Verif.Xml.Props
/-!
# XML property lists: examples and findings
-/

namespace Verif.Xml
open Verif Verif.JsonDrv
open Verif.Build (ETree)

variable (fo : FloatOps)

/-! ## A document -/

/-- The children of `<plist>` in
`<plist><DICT> <key>a</key><!-- --><integer> 12</integer><key/>...</DICT></plist>`, with a comment, blanks and a name in
upper case. -/
def exKids : List XTree :=
  [.other, .elem [68, 73, 67, 84] false [.other, .elem nKey false [.text [97]], .other, .elem nInteger false [.text [32, 49, 50]],
    .elem nKey false [], .elem nList false [.elem nString false [.text [104, 105]], .elem nTrue true [], .other, .elem nNull false [],
      .elem [102, 111, 111] false [.text [120]], .elem nBlob false [.text [84, 87, 70, 117]], .elem nMap true []]]]

def exSays : ETree :=
  .map [([97], .scalar (.int 12)), ([], .list [.scalar (.str [104, 105]), .scalar (.bool true), .scalar .null, .scalar (.str [120]),
    .scalar (.blob [[77, 97, 110]]), .map []])]

theorem ex_stringy_foo : Stringy [102, 111, 111] := by simp only [Stringy, Called]; decide
theorem ex_stringy_string : Stringy nString := by simp only [Stringy, Called]; decide

theorem ex_twelve : Says fo fresh (.elem nInteger false [.text [32, 49, 50]]) (.scalar (.int 12)) := by
  have h := Says.integer (fo := fo) (Q := fresh) (n := nInteger) (s := [32, 49, 50]) (stale := false) rfl (called_self _ (by decide)) (.text .nil)
  have e : readInt false [32, 49, 50] = .int 12 := by rfl
  rwa [e] at h

theorem ex_items : Items fo fresh exKids [exSays] := by
  refine .other (.elem (.dict (by unfold Called; decide) (by intro h; cases h) (.other (.key (called_self _ (by decide)) (.inl (.text .nil))
    (.other (.value (ex_twelve fo) (.key (called_self _ (by decide)) (.inr ⟨.nil, rfl⟩)
      (.value (.array (called_self _ (by decide)) (by intro h; cases h) ?_) .nil))))))) .nil)
  exact .elem (.string ex_stringy_string (.inl (.text .nil)))
    (.elem (.yes (called_self _ (by decide)) (fun _ => rfl) .nil) (.other (.elem (.null (called_self _ (by decide)) (fun _ => rfl) .nil)
      (.elem (.string ex_stringy_foo (.inl (.text .nil)))
        (.elem (.data (d := [77, 97, 110]) (called_self _ (by decide)) (.text .nil) (by decide +kernel) (by decide))
          (.elem (.dict (called_self _ (by decide)) (fun _ => rfl) .nil) .nil))))))

/-- It is read as what it says. -/
example (rest : List RNode) : ∃ v, LastOf [exSays] v ∧
    deserialize fo (fun _ => false) (nodesAll [.other] ++ (XTree.elem nRoot false exKids).nodes ++ rest) = .ok v := by
  obtain ⟨xs', v, h1, h2, h3⟩ := plist_read (called_self nRoot (by decide)) (ex_items fo) (.other .nil) rest (fun _ => false) (fun _ => rfl)
  rw [items_one_thing false h1 (ex_items fo)] at h2
  exact ⟨v, h2, h3⟩

/-- The same without the `plist` element. -/
example : ∃ v, Build.Denotes (.list [.scalar (.bool true)]) v ∧ ∀ rest,
    deserialize fo (fun _ => false) ((XTree.elem nList false [.elem nTrue true []]).nodes ++ rest) = .ok v := by
  refine ⟨_, Build.value_denotes _, fun rest => ?_⟩
  have hs : Says fo fresh (XTree.elem nList false [.elem nTrue true []]) (.list [.scalar (.bool true)]) :=
    .array (called_self _ (by decide)) (by intro h; cases h) (.elem (.yes (called_self _ (by decide)) (fun _ => rfl) .nil) .nil)
  obtain ⟨x', v, h1, h2, h3⟩ := bare_read hs (.inl (called_self _ (by decide))) .nil rest (fun _ => false) (fun _ => rfl)
  rw [says_one_thing false h1 hs] at h2
  rw [← h2.unique]
  exact h3

/-- A lone integer. -/
example (stale : Nat → Bool) : deserialize fo stale [.other, .elem nInteger false, .text [49], .endElem nInteger] = .throw .runtime :=
  lone_scalar_unread (n := nInteger) (.text .nil) (.inl (called_self _ (by decide))) (.other .nil) [] stale
example (stale : Nat → Bool) : deserialize fo stale [.other, .elem nTrue true] = .ok (.bool true) :=
  lone_word_read (.other .nil) (.inr (.inl ⟨called_self _ (by decide), rfl⟩)) [] stale
example (stale : Nat → Bool) : deserialize fo stale [.elem nTrue false, .endElem nTrue] = .throw .runtime :=
  lone_word_unread (n := nTrue) (.inr (.inl (called_self _ (by decide)))) .nil .nil [] stale
example (stale : Nat → Bool) : deserialize fo stale [.elem nString false, .endElem nString] = .ok (.str []) :=
  lone_empty_string_read ex_stringy_string .nil .nil [] stale

/-- Any nodes. -/
example (stale : Nat → Bool) :
    (∃ v, deserialize fo stale [.elem nMap false, .text [32], .elem nBlob false, .text [61], .endElem nList, .error] = .ok v) ∨
    ∃ e, deserialize fo stale [.elem nMap false, .text [32], .elem nBlob false, .text [61], .endElem nList, .error] = .throw e :=
  plist_defined_partial fo stale _ (by
    intro s hs
    simp only [List.mem_cons, RNode.text.injEq, reduceCtorEq, false_or, List.not_mem_nil, or_false] at hs
    rcases hs with rfl | rfl <;> decide)

/-- A value that is written and read back. -/
def exVal : Val := .map [([], .list [.null, .bool false, .int (-5), .uint 7, .uint (2 ^ 63)]), ([97], .str [104, 195, 169]),
  ([98], .blob [[1], [2, 255]])]

theorem exVal_ok (ff : UInt64 → Bytes) : Every (ScalarOk ff) TextOk exVal := by
  refine ⟨⟨by decide, rfl, .inl rfl⟩, ⟨trivial, trivial, trivial, trivial, trivial, trivial⟩, ⟨by decide, ?_, ?_⟩, ⟨by decide, ?_, ?_⟩,
    ⟨by decide, ?_, ?_⟩, ⟨⟨by decide, by decide⟩, by decide⟩, trivial⟩
  · decide
  · exact .inr ⟨97, by decide, by decide⟩
  · decide
  · exact .inr ⟨104, by decide, by decide⟩
  · decide
  · exact .inr ⟨98, by decide, by decide⟩

theorem exVal_wf : exVal.WF := by
  simp [exVal, Val.WF, WFMap, WFList, AMap.Sorted, AMap.above]
  try decide

example (ff : UInt64 → Bytes) : ∃ ws, serializeDoc ff exVal = .ok ws ∧ deserialize fo (fun _ => false) (nodesOf [] ws) =
    .ok (.map [([], .list [.null, .bool false, .int (-5), .int 7, .uint (2 ^ 63)]), ([97], .str [104, 195, 169]), ([98], .blob [[1, 2, 255]])]) := by
  have := plist_round_trip_partial fo ff exVal exVal_wf (exVal_ok ff)
  have e : plistBack fo ff exVal = .map [([], .list [.null, .bool false, .int (-5), .int 7, .uint (2 ^ 63)]), ([97], .str [104, 195, 169]),
      ([98], .blob [[1, 2, 255]])] := by
    simp [exVal, plistBack, plistBackMap, plistBackList, scalarBack]
    decide +kernel
  rwa [e] at this

example (ff : UInt64 → Bytes) : ∃ ws, serialize ff exVal = .ok ws ∧ deserialize fo (fun _ => false) (nodesOf [] ws) = .ok (plistBack fo ff exVal) :=
  container_round_trip_partial fo ff exVal exVal_wf (exVal_ok ff) (.inr ⟨_, rfl⟩)

example (ff : UInt64 → Bytes) : veq 64 exVal (plistBack fo ff exVal) = true :=
  plist_back_equal fo ff exVal (by
    simp only [exVal, Every, EveryMap, EveryList, reduceCtorEq, false_implies, implies_true, and_true]) 64 (by decide)

example (ff : UInt64 → Bytes) (stale : Nat → Bool) :
    ∃ ws, serialize ff (.int 3) = .ok ws ∧ deserialize fo stale (nodesOf [] ws) = .throw .runtime :=
  lone_round_trip_false fo ff (.int 3) trivial (.inl ⟨_, rfl⟩) stale

/-- `" -12abc"` -/
example : readInt true [32, 45, 49, 50, 97, 98, 99] = .int (-12) := by
  have e : ([32, 45, 49, 50, 97, 98, 99] : Bytes) = [32] ++ (decimal (-12) ++ [97, 98, 99]) := by
    rw [decimal, if_pos (by decide), show (-12 : Int).natAbs = 12 from rfl, natDec_ge (by decide), natDec_lt (by decide)]
    rfl
  rw [e, integer_read true (-12) (by decide) (by decide) (by intro c hc; cases hc; rfl)]
  rfl
example : readInt false [97, 98] = .int 0 := not_integer_zero 97 [98] false (by decide)

/-! ## Findings -/

/-- C81, finding: a string of blanks is read back as the empty string. -/
theorem blank_string_false (ff : UInt64 → Bytes) (stale : Nat → Bool) :
    ∃ ws, serializeDoc ff (.str [32]) = .ok ws ∧ deserialize fo stale (nodesOf [] ws) = .ok (.str []) := ⟨_, rfl, rfl⟩

/-- C81, finding: a key of blanks is read back as the empty key. -/
theorem blank_key_false (ff : UInt64 → Bytes) (stale : Nat → Bool) :
    ∃ ws, serializeDoc ff (.map [([9], .null)]) = .ok ws ∧ deserialize fo stale (nodesOf [] ws) = .ok (.map [([], .null)]) := ⟨_, rfl, rfl⟩

/-- C81, finding: a string with a control character, or one that is not UTF-8, is written and cannot be read. -/
theorem control_character_false (ff : UInt64 → Bytes) (stale : Nat → Bool) :
    ∃ ws, serializeDoc ff (.str [1]) = .ok ws ∧ deserialize fo stale (nodesOf [] ws) = .throw .runtime := ⟨_, rfl, rfl⟩
theorem not_utf8_false (ff : UInt64 → Bytes) (stale : Nat → Bool) :
    ∃ ws, serializeDoc ff (.str [255]) = .ok ws ∧ deserialize fo stale (nodesOf [] ws) = .throw .runtime := ⟨_, rfl, rfl⟩

/-- C81, finding: a string is written up to its first NUL. -/
theorem nul_string_false (ff : UInt64 → Bytes) (stale : Nat → Bool) :
    ∃ ws, serializeDoc ff (.str [97, 0, 98]) = .ok ws ∧ deserialize fo stale (nodesOf [] ws) = .ok (.str [97]) := ⟨_, rfl, rfl⟩

/-- C78, finding: `<plist/>` is not read, although `<plist></plist>` is. -/
theorem empty_plist_false (stale : Nat → Bool) :
    deserialize fo stale [.elem nRoot true] = .throw .runtime ∧
    deserialize fo stale [.elem nRoot false, .endElem nRoot] = .ok .null := ⟨rfl, rfl⟩

/-- C77, finding: a comment in a string makes two strings of it. -/
theorem comment_in_string_false (stale : Nat → Bool) :
    deserialize fo stale (XTree.elem nList false [.elem nString false [.text [97], .other, .text [98]]]).nodes =
      .ok (.list [.str [97], .str [98]]) := rfl

/-- C77, finding: a comment in the value of a map takes the rest of the text for the next key. -/
theorem comment_in_value_false (stale : Nat → Bool) :
    deserialize fo stale (XTree.elem nMap false [.elem nKey false [.text [97]], .elem nString false [.text [98], .other, .text [99]],
      .elem nTrue true []]).nodes = .ok (.map [([97], .str [98]), ([99], .bool true)]) := rfl

/-- C77, finding: a value where a key should be is taken for one. -/
theorem value_as_key_false (stale : Nat → Bool) :
    deserialize fo stale (XTree.elem nMap false [.elem nTrue true [], .elem nNull true []]).nodes =
      .ok (.map [([116, 114, 117, 101], .null)]) := rfl

/-- C77, finding: a key without a value is dropped. -/
theorem key_without_value_false (stale : Nat → Bool) :
    deserialize fo stale (XTree.elem nMap false [.elem nKey false [.text [97]]]).nodes = .ok (.map []) := rfl

/-- C80, finding: data without any bytes in it, as in `<data>=</data>`, is read as a blob that cannot be written. -/
theorem no_bytes_false (ff : UInt64 → Bytes) (stale : Nat → Bool) :
    deserialize fo stale (XTree.elem nRoot false [.elem nBlob false [.text [61]]]).nodes = .ok (.blob [[]]) ∧
    serialize ff (.blob [[]]) = .ub := ⟨rfl, plist_written_false ff⟩

/-- C81, finding: an empty blob is written but not read. -/
theorem empty_blob_false (ff : UInt64 → Bytes) (stale : Nat → Bool) :
    ∃ ws, serializeDoc ff (.blob []) = .ok ws ∧ deserialize fo stale (nodesOf [] ws) = .throw .runtime := by
  have h : Every BlobOk (fun _ => True) (.blob []) := ⟨by nofun, by decide⟩
  have e : blobStr [] = [10] := by
    have h2 := (blobText_ok h).2.1
    rw [B64.encode_flat [] 72 (by nofun)] at h2
    exact (Out.ok.inj h2).symm
  refine ⟨_, serializeDoc_eq ff h, ?_⟩
  rw [plistOf, e]
  rfl

end Verif.Xml
