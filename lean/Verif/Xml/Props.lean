import Verif.Xml.Safe
import Verif.Xml.Round
/-!
# C77–C82: XML property lists
-/

namespace Verif.Xml
open Verif Verif.JsonDrv
open Verif.Build (ETree BState Frame treeOf value_denotes)

variable {fo : FloatOps} {Q : Bool → Prop}

/-! ## C77: what a property list says is what is read -/

/-- C77.  A document with a `plist` element is read as the last value in it (null if there is none), whatever comes
before it (comments, declarations) and after it. -/
theorem plist_read {n : Bytes} {ks : List XTree} {xs : List ETree} (hn : Called n nRoot) (hi : Items fo Q ks xs)
    {pre : List XTree} (hp : Texts pre []) (rest : List RNode) (stale : Nat → Bool) (hQ : ∀ k, Q (stale k)) :
    ∃ xs' v, Items fo Q ks xs' ∧ LastOf xs' v ∧
      deserialize fo stale (nodesAll pre ++ (XTree.elem n false ks).nodes ++ rest) = .ok v := by
  obtain ⟨xs', hi', h⟩ := plist_run hn hi hp rest stale hQ
  exact ⟨xs', _, hi', lastOf xs', h⟩

/-- C77.  A `dict` or `array` without a `plist` around it is read the same way. -/
theorem bare_read {n : Bytes} {em : Bool} {ks : List XTree} {x : ETree} (hx : Says fo Q (.elem n em ks) x)
    (hc : Called n nList ∨ Called n nMap) {pre : List XTree} (hp : Texts pre []) (rest : List RNode) (stale : Nat → Bool)
    (hQ : ∀ k, Q (stale k)) :
    ∃ x' v, Says fo Q (.elem n em ks) x' ∧ Build.Denotes x' v ∧
      deserialize fo stale (nodesAll pre ++ (XTree.elem n em ks).nodes ++ rest) = .ok v := by
  obtain ⟨x', hx', h⟩ := bare_run hx hc hp rest stale hQ
  exact ⟨x', _, hx', value_denotes x', h⟩

/-- C77.  With `errno` in one state a document says one thing only, so the two theorems above give *the* value. -/
theorem says_one_thing (q : Bool) {t : XTree} {x y : ETree} (h : Says fo (· = q) t x) (h' : Says fo (· = q) t y) : x = y :=
  h.unique (fun a b ha hb => by rw [ha, hb]) h'

theorem items_one_thing (q : Bool) {ks : List XTree} {xs ys : List ETree} (h : Items fo (· = q) ks xs) (h' : Items fo (· = q) ks ys) :
    xs = ys := h.unique (fun a b ha hb => by rw [ha, hb]) h'

/-! ## C78: scalars on their own -/

/-- C78, finding: a number, a non-empty string or data that is the whole document is not read: the value is taken at
its text, and the end of the element is then an error. -/
theorem lone_scalar_unread {n : Bytes} {ks : List XTree} {s : Bytes} (hk : Texts ks [s])
    (hn : Called n nInteger ∨ Called n nFloat ∨ Stringy n ∨ (Called n nBlob ∧ ∃ v, readBlob s = .ok v))
    {pre : List XTree} (hp : Texts pre []) (rest : List RNode) (stale : Nat → Bool) :
    deserialize fo stale (nodesAll pre ++ (XTree.elem n false ks).nodes ++ rest) = .throw .runtime := by
  rw [deserialize_run, List.append_assoc, texts_none hp rfl, XTree.nodes, List.cons_append, List.append_assoc]
  obtain ⟨t, hnt, ht⟩ : ∃ t, nodeOf n = t ∧ (t = .integer ∨ t = .float ∨ t = .string ∨ (t = .blob ∧ ∃ v, readBlob s = .ok v)) := by
    rcases hn with h | h | h | ⟨h, hb⟩
    · exact ⟨_, called_integer h, .inl rfl⟩
    · exact ⟨_, called_float h, .inr (.inl rfl)⟩
    · exact ⟨_, stringy h, .inr (.inr (.inl rfl))⟩
    · exact ⟨_, called_blob h, .inr (.inr (.inr ⟨rfl, hb⟩))⟩
  rw [run_loop (st' := [t, .end]) (e' := true) (b' := BState.init)]
  · obtain ⟨i, h⟩ := texts_one (fo := fo) hk rfl [t, .end] true BState.init (later (later stale (nodesAll pre).length) 1)
    have : ∃ v, node fo (later (later stale (nodesAll pre).length) 1 i) [t, .end] true BState.init (.text s) =
        .ok ⟨true, [t, .end], false, ⟨[], v, true⟩⟩ := by
      rw [node, if_neg (by nofun)]
      rcases ht with rfl | rfl | rfl | ⟨rfl, v, hv⟩
      · exact ⟨_, rfl⟩
      · exact ⟨_, rfl⟩
      · exact ⟨_, rfl⟩
      · refine ⟨v, ?_⟩
        rw [processText, hv]
        rfl
    obtain ⟨v, hv⟩ := this
    rw [h _ hv]
    rfl
  · rw [node, if_neg (by nofun), hnt]
    rcases ht with rfl | rfl | rfl | ⟨rfl, _⟩ <;> rfl

/-- C78.  `<null/>`, `<true/>` and `<false/>` on their own are read, ... -/
theorem lone_word_read {n : Bytes} {v : Val} {pre : List XTree} (hp : Texts pre [])
    (h : Called n nNull ∧ v = .null ∨ Called n nTrue ∧ v = .bool true ∨ Called n nFalse ∧ v = .bool false)
    (rest : List RNode) (stale : Nat → Bool) :
    deserialize fo stale (nodesAll pre ++ (XTree.elem n true []).nodes ++ rest) = .ok v := by
  rw [deserialize_run, List.append_assoc, texts_none hp rfl, XTree.nodes, List.singleton_append]
  refine run_stop (st' := [.end]) (e' := true) (b' := ⟨[], v, true⟩) ?_ rfl
  rw [node, if_neg (by nofun)]
  rcases h with ⟨h, rfl⟩ | ⟨h, rfl⟩ | ⟨h, rfl⟩
  · rw [called_null h]; rfl
  · rw [called_true h]; rfl
  · rw [called_false h]; rfl

/-- C78, finding: ... but not if they are written with a separate end, as in `<true></true>`. -/
theorem lone_word_unread {n : Bytes} (h : Called n nNull ∨ Called n nTrue ∨ Called n nFalse) {ks : List XTree} (hk : Texts ks [])
    {pre : List XTree} (hp : Texts pre []) (rest : List RNode) (stale : Nat → Bool) :
    deserialize fo stale (nodesAll pre ++ (XTree.elem n false ks).nodes ++ rest) = .throw .runtime := by
  rw [deserialize_run, List.append_assoc, texts_none hp rfl, XTree.nodes, List.cons_append, List.append_assoc]
  obtain ⟨t, v, hv⟩ : ∃ t v, node fo (later stale (nodesAll pre).length 0) [.end] true BState.init (.elem n false) =
      .ok ⟨true, [t, .end], true, ⟨[], v, true⟩⟩ := by
    rw [node, if_neg (by nofun)]
    rcases h with h | h | h
    · rw [called_null h]; exact ⟨_, _, rfl⟩
    · rw [called_true h]; exact ⟨_, _, rfl⟩
    · rw [called_false h]; exact ⟨_, _, rfl⟩
  rw [run_loop hv, texts_none hk rfl]
  rfl

/-- C78.  An empty string on its own is read. -/
theorem lone_empty_string_read {n : Bytes} (hn : Stringy n) {ks : List XTree} (hk : Texts ks []) {pre : List XTree}
    (hp : Texts pre []) (rest : List RNode) (stale : Nat → Bool) :
    deserialize fo stale (nodesAll pre ++ (XTree.elem n false ks).nodes ++ rest) = .ok (.str []) := by
  rw [deserialize_run, List.append_assoc, texts_none hp rfl, XTree.nodes, List.cons_append, List.append_assoc]
  rw [run_loop (st' := [.string, .end]) (e' := true) (b' := BState.init), texts_none hk rfl]
  · refine run_stop (st' := [.end]) (e' := true) (b' := ⟨[], .str [], true⟩) ?_ rfl
    rw [node, if_neg (by nofun), stringy hn]
    rfl
  · rw [node, if_neg (by nofun), stringy hn]
    rfl

/-! ## C79: any document is safe to read, almost -/

/-- C79.  Whatever nodes the library delivers, reading comes to a value or an exception, if no text has a `{` (and no
text has a gigabyte).  Missing: `{` in data, see `plist_defined_false`. -/
theorem plist_defined_partial (fo : FloatOps) (stale : Nat → Bool) (ns : List RNode)
    (h : ∀ s, .text s ∈ ns → 0x7b ∉ s ∧ 3 * s.length < 2 ^ 32) :
    (∃ v, deserialize fo stale ns = .ok v) ∨ ∃ e, deserialize fo stale ns = .throw e := by
  have := run_fine fo ns stale [.end] true BState.init ⟨[], rfl⟩ h
  rw [← deserialize_run] at this
  cases hd : deserialize fo stale ns with
  | ok v => exact .inl ⟨v, rfl⟩
  | throw e => exact .inr ⟨e, rfl⟩
  | ub => exact absurd hd this

/-- C79, finding: `<data>{</data>` reads outside of a table. -/
theorem plist_defined_false : ∃ ns, ∀ (fo : FloatOps) (stale : Nat → Bool), deserialize fo stale ns = .ub :=
  ⟨[.elem nBlob false, .text [0x7b], .endElem nBlob], fun _ _ => rfl⟩

/-- C79.  Comments, blanks between elements and the like never change what is read. -/
theorem comments_ignored (fo : FloatOps) (ns : List RNode) (q : Bool) :
    deserialize fo (fun _ => q) ns = deserialize fo (fun _ => q) (ns.filter (fun n => n != .other)) := by
  obtain ⟨s', h1, h2⟩ := run_others fo ns (fun _ => q) [.end] true BState.init
  have e : s' = fun _ => q := funext fun k => (h1 k).elim fun _ h => h
  have ef : (fun n : RNode => !isOther n) = fun n => n != .other := by
    funext n
    cases n <;> rfl
  rw [deserialize_run, h2, e, ef]
  rfl

/-! ## C80: what is written -/

/-- C80.  A value is written as its property list: one element for each value and each key, in order, with the decimal
text of integers and the base64 text of blobs.  For every value whose blobs can be written. -/
theorem plist_written : ∃ bt : List Bytes → Bytes,
    (∀ s, BlobOk (.blob s) → B64Spec.unwrap (bt s) = B64Spec.rfc4648 s.flatten) ∧
    ∀ (ff : UInt64 → Bytes) (v : Val), Every BlobOk (fun _ => True) v →
      serialize ff v = .ok (plistOf ff bt v).written ∧
      serializeDoc ff v = .ok (WTree.elem nRoot [plistOf ff bt v]).written := by
  refine ⟨blobStr, fun s h => ?_, fun ff v h => ⟨serialize_eq ff h, serializeDoc_eq ff h⟩⟩
  obtain ⟨t, ht, hr⟩ := B64.encode_rfc4648 s 72 h.1
  rw [(blobText_ok h).2.1] at ht
  cases ht
  exact hr

/-- C80, finding: an empty blob that has a slab cannot be written: a byte outside of it is read. -/
theorem plist_written_false (ff : UInt64 → Bytes) : serialize ff (.blob [[]]) = .ub := by
  have h : blobText [[]] = .ub := by
    rw [blobText, B64.encode_empty_slab_ub]
    rfl
  rw [serialize, Event.valTree, Event.Tree.calls, emits, Event.Atom.call, emit, h]
  rfl

/-! ## C81: writing and reading -/

theorem written_nodes {t : WTree} (h : t.Clean) : nodesOf [] t.written = nodesAll t.seen := by
  have := nodesOf_written t [] [] h
  rwa [List.append_nil, nodesOf, List.map_nil, List.append_nil] at this

/-- C81.  A value written in a document and read back is the value written, except that non-negative integers come back
as Integer where they fit, doubles as the number their text says and blobs as one buffer.  Missing: texts that are
blanks only or have characters XML does not have, and empty blobs, which are not read back (see below). -/
theorem plist_round_trip_partial (fo : FloatOps) (ff : UInt64 → Bytes) (v : Val) (hw : v.WF) (hc : Every (ScalarOk ff) TextOk v) :
    ∃ ws, serializeDoc ff v = .ok ws ∧ deserialize fo (fun _ => false) (nodesOf [] ws) = .ok (plistBack fo ff v) := by
  refine ⟨_, serializeDoc_eq ff (every_blob ff v hc), ?_⟩
  rw [written_nodes (t := .elem nRoot [_]) ⟨clean_val ff v hc, trivial⟩]
  have hi : Items fo fresh [seenOf ff v] [treeOf (plistBack fo ff v)] := .elem (says_seen fo ff v hc) .nil
  obtain ⟨xs', w, h1, h2, h3⟩ := plist_read (n := nRoot) (called_self _ (by decide)) hi .nil [] (fun _ => false) (fun _ => rfl)
  rw [items_one_thing false h1 hi] at h2
  have e : w = plistBack fo ff v := by
    rcases h2 with ⟨h, _⟩ | ⟨i, x, h, hd⟩
    · cases h
    · obtain ⟨-, h⟩ := List.append_inj' (s₁ := []) (t₁ := [treeOf (plistBack fo ff v)]) h rfl
      cases h
      rw [hd.unique, Build.treeOf_value _ (back_wf fo ff v hw)]
  rw [← e, ← h3]
  congr 1
  simp only [WTree.seen, seenAll, seen_elem, List.append_nil, List.isEmpty_cons, nodesAll, List.nil_append]

/-- C81.  The same for a list or map written by `Serialize`, which writes no `plist` element. -/
theorem container_round_trip_partial (fo : FloatOps) (ff : UInt64 → Bytes) (v : Val) (hw : v.WF)
    (hc : Every (ScalarOk ff) TextOk v) (hl : (∃ xs, v = .list xs) ∨ ∃ m, v = .map m) :
    ∃ ws, serialize ff v = .ok ws ∧ deserialize fo (fun _ => false) (nodesOf [] ws) = .ok (plistBack fo ff v) := by
  refine ⟨_, serialize_eq ff (every_blob ff v hc), ?_⟩
  rw [written_nodes (clean_val ff v hc), seen_elem]
  have hs := says_seen fo ff v hc
  obtain ⟨n, em, ks, e, hn⟩ : ∃ n em ks, seenOf ff v = .elem n em ks ∧ (Called n nList ∨ Called n nMap) := by
    rcases hl with ⟨xs, rfl⟩ | ⟨m, rfl⟩
    · exact ⟨nList, _, _, rfl, .inl (called_self _ (by decide))⟩
    · exact ⟨nMap, _, _, rfl, .inr (called_self _ (by decide))⟩
  rw [e] at hs ⊢
  obtain ⟨x', w, h1, h2, h3⟩ := bare_read hs hn .nil [] (fun _ => false) (fun _ => rfl)
  rw [says_one_thing false h1 hs] at h2
  have e2 : w = plistBack fo ff v := by rw [h2.unique, Build.treeOf_value _ (back_wf fo ff v hw)]
  rw [← e2, ← h3]
  congr 1

/-- C81, finding: a number, a non-empty string or a blob written by `Serialize` on its own cannot be read back. -/
theorem lone_round_trip_false (fo : FloatOps) (ff : UInt64 → Bytes) (v : Val) (hc : Every (ScalarOk ff) TextOk v)
    (hv : (∃ i, v = .int i) ∨ (∃ u, v = .uint u) ∨ (∃ d, v = .flt d) ∨ (∃ s, v = .str s ∧ s ≠ []) ∨ ∃ s, v = .blob s)
    (stale : Nat → Bool) :
    ∃ ws, serialize ff v = .ok ws ∧ deserialize fo stale (nodesOf [] ws) = .throw .runtime := by
  refine ⟨_, serialize_eq ff (every_blob ff v hc), ?_⟩
  rw [written_nodes (clean_val ff v hc)]
  have go : ∀ {n s}, Texts (textKids s) [s] →
      (Called n nInteger ∨ Called n nFloat ∨ Stringy n ∨ (Called n nBlob ∧ ∃ v, readBlob s = .ok v)) →
      deserialize fo stale (nodesAll [.elem n false (textKids s)]) = .throw .runtime := by
    intro n s ht hn
    have := lone_scalar_unread (fo := fo) ht hn .nil [] stale
    exact this
  rcases hv with ⟨i, rfl⟩ | ⟨u, rfl⟩ | ⟨d, rfl⟩ | ⟨s, rfl, hne⟩ | ⟨s, rfl⟩
  · rw [plistOf, seen_one]
    exact go (textKids_one (decimal_text _) (decimal_ne _)) (.inl (called_self _ (by decide)))
  · rw [plistOf, seen_one]
    exact go (textKids_one (decimal_text _) (decimal_ne _)) (.inl (called_self _ (by decide)))
  · rw [plistOf, seen_one]
    exact go (textKids_one hc.1 hc.2) (.inr (.inl (called_self _ (by decide))))
  · have hc : TextOk s := hc
    rw [plistOf, takeWhile_noNul hc.1, seen_one]
    refine go (textKids_one hc hne) (.inr (.inr (.inl ?_)))
    simp only [Stringy, Called]
    decide
  · have hb := blob_text hc.1 hc.2
    rw [plistOf, seen_one]
    exact go (textKids_one hb.1 hb.2.1)
      (.inr (.inr (.inr ⟨called_self _ (by decide), _, readBlob_ok hb.2.2 (blobText_ok hc.1).2.2⟩)))

mutual
theorem cmp_back (fo : FloatOps) (ff : UInt64 → Bytes) {p : Nat} (hp : 64 ≤ p) : ∀ v : Val,
    Every (fun x => ∀ d, x = .flt d → fo.strtod (ff d) = d) (fun _ => True) v → cmp p v (plistBack fo ff v) = 0
  | .list xs, h => by simp only [plistBack, cmp]; rw [if_pos (eqList_back fo ff hp xs h)]
  | .map m, h => by simp only [plistBack, cmp]; rw [if_pos (eqMap_back fo ff hp m h)]
  | .null, _ => cmp_refl p _
  | .bool _, _ => by simp only [plistBack]; exact cmp_refl p _
  | .int _, _ => by simp only [plistBack]; exact cmp_refl p _
  | .uint u, _ => by
    simp only [plistBack, scalarBack]
    split
    · rename_i h
      rw [int_compare_by_value hp (a := u.toNat) (b := u.toNat) rfl]
      · simp
      · simp only [intVal, Option.some.injEq]
        rw [Int64.toInt_ofNat_of_lt h]
    · exact cmp_refl p _
  | .flt d, h => by
    simp only [plistBack, scalarBack, h d rfl]; exact cmp_refl p _
  | .str _, _ => by simp only [plistBack]; exact cmp_refl p _
  | .blob s, _ => by simp only [plistBack, scalarBack]; have := cmp_deepCopy p (.blob s); simpa only [deepCopy] using this
theorem eqList_back (fo : FloatOps) (ff : UInt64 → Bytes) {p : Nat} (hp : 64 ≤ p) : ∀ xs : List Val,
    EveryList (fun x => ∀ d, x = .flt d → fo.strtod (ff d) = d) (fun _ => True) xs → eqList p xs (plistBackList fo ff xs) = true
  | [], _ => by simp [plistBackList, eqList]
  | x :: xs, h => by simp [plistBackList, eqList, cmp_back fo ff hp x h.1, eqList_back fo ff hp xs h.2]
theorem eqMap_back (fo : FloatOps) (ff : UInt64 → Bytes) {p : Nat} (hp : 64 ≤ p) : ∀ m : List (Bytes × Val),
    EveryMap (fun x => ∀ d, x = .flt d → fo.strtod (ff d) = d) (fun _ => True) m → eqMap p m (plistBackMap fo ff m) = true
  | [], _ => by simp [plistBackMap, eqMap]
  | (k, x) :: m, h => by simp [plistBackMap, eqMap, cmp_back fo ff hp x h.2.1, eqMap_back fo ff hp m h.2.2]
end

/-- C81.  What is read back compares equal to the value written, if the doubles in it are read as they were. -/
theorem plist_back_equal (fo : FloatOps) (ff : UInt64 → Bytes) (v : Val)
    (hf : Every (fun x => ∀ d, x = .flt d → fo.strtod (ff d) = d) (fun _ => True) v) (p : Nat) (hp : 64 ≤ p) :
    veq p v (plistBack fo ff v) = true := by simp [veq, cmp_back fo ff hp v hf]

/-! ## C82: the text of an integer -/

theorem digitsVal_stop (ds junk : Bytes) (h : ∀ c ∈ ds, isDigit c = true) (hj : ∀ c, junk.head? = some c → isDigit c = false) (acc : Nat) :
    digitsVal 10 decDigit acc (ds ++ junk) = decVal acc ds := by
  induction ds generalizing acc with
  | nil =>
    cases junk with
    | nil => rfl
    | cons c r =>
      rw [List.nil_append, digitsVal, decDigit, if_neg (by rw [hj c rfl]; nofun)]
      rfl
  | cons c ds ih =>
    rw [List.cons_append, digitsVal, decDigit, if_pos (h c (.head _))]
    simp only []
    rw [ih (fun x hx => h x (.tail _ hx))]
    rfl

theorem magnitude_stop {n : Nat} (hn : 0 < n) {junk : Bytes} (hj : ∀ c, junk.head? = some c → isDigit c = false) :
    magnitude (natDec n ++ junk) = n := by
  obtain ⟨b, bs, e, hd, hne⟩ := natDec_head n hn
  have h2 := digitsVal_stop (natDec n) junk (natDec_all_digits n) hj 0
  rw [decVal_natDec_acc] at h2
  rw [e, List.cons_append] at h2 ⊢
  unfold magnitude
  split
  · rename_i h1; exact absurd (List.cons.inj h1).1 hne
  · rename_i h1; exact absurd (List.cons.inj h1).1 hne
  · exact h2

theorem dropWhile_blanks {bl t : Bytes} (hb : ∀ c ∈ bl, isSpace c = true) (ht : ∀ c, t.head? = some c → isSpace c = false) :
    (bl ++ t).dropWhile isSpace = t := by
  induction bl with
  | nil =>
    cases t with
    | nil => rfl
    | cons c t => rw [List.nil_append, List.dropWhile_cons, if_neg (by rw [ht c rfl]; nofun)]
  | cons c bl ih =>
    rw [List.cons_append, List.dropWhile_cons, if_pos (hb c (.head _)), ih (fun x hx => hb x (.tail _ hx))]

theorem readInt_neg {stale : Bool} {s t : Bytes} {n : Nat} (hs : Ext.sign (s.dropWhile isSpace) = (true, t)) (hm : magnitude t = n) :
    readInt stale s = .int (Int64.ofInt (if n ≤ 2 ^ 63 then -(n : Int) else -(2 ^ 63))) := by
  rw [readInt, hs]
  simp only [hm, Guess.strtoll, if_true]
  have : (if n ≤ 2 ^ 63 then -(n : Int) else -(2 ^ 63)) ≠ 2 ^ 63 - 1 := by split <;> omega
  rw [if_neg (fun h => this h.1)]

theorem readInt_pos {stale : Bool} {s t : Bytes} {n : Nat} (hs : Ext.sign (s.dropWhile isSpace) = (false, t)) (hm : magnitude t = n) :
    readInt stale s =
      if n < 2 ^ 63 - 1 then .int (Int64.ofInt n)
      else if n = 2 ^ 63 - 1 then (if stale then .uint (UInt64.ofNat (2 ^ 63 - 1)) else .int (Int64.ofInt n))
      else if n < 2 ^ 64 then .uint (UInt64.ofNat n)
      else .uint (UInt64.ofNat (2 ^ 64 - 1)) := by
  rw [readInt, hs]
  simp only [hm, Guess.strtoll, Bool.false_eq_true, if_false, Ext.signed64, Bool.or_eq_true, decide_eq_true_eq]
  by_cases h1 : n < 2 ^ 63 - 1
  · have e : (if n < 2 ^ 63 then (n : Int) else 2 ^ 63 - 1) = n := if_pos (by omega)
    have hn : ¬ ((n : Int) = 2 ^ 63 - 1 ∧ (stale = true ∨ n ≥ 2 ^ 63)) := by rintro ⟨h, _⟩; omega
    rw [if_pos h1, e, if_neg hn]
  · rw [if_neg h1]
    by_cases h2 : n = 2 ^ 63 - 1
    · have e : (if n < 2 ^ 63 then (n : Int) else 2 ^ 63 - 1) = n := if_pos (by omega)
      rw [if_pos h2, e]
      cases stale with
      | true =>
        have hp : ((n : Int) = 2 ^ 63 - 1 ∧ (true = true ∨ n ≥ 2 ^ 63)) := ⟨by omega, .inl rfl⟩
        rw [if_pos hp, if_neg (show ¬ n ≥ 2 ^ 64 by omega), if_pos rfl, h2]
      | false =>
        have hp : ¬ ((n : Int) = 2 ^ 63 - 1 ∧ (false = true ∨ n ≥ 2 ^ 63)) := by
          rintro ⟨_, h | h⟩
          · cases h
          · omega
        rw [if_neg hp, if_neg (by nofun)]
    · have e : (if n < 2 ^ 63 then (n : Int) else 2 ^ 63 - 1) = 2 ^ 63 - 1 := if_neg (by omega)
      have hp : ((2 : Int) ^ 63 - 1 = 2 ^ 63 - 1 ∧ (stale = true ∨ n ≥ 2 ^ 63)) := ⟨rfl, .inr (by omega)⟩
      rw [if_neg h2, e, if_pos hp]
      by_cases h3 : n < 2 ^ 64
      · rw [if_pos h3, if_neg (show ¬ n ≥ 2 ^ 64 by omega)]
      · rw [if_neg h3, if_pos (show n ≥ 2 ^ 64 by omega)]

/-- What an integer comes to: Integer, Unsigned above the Integers, saturating at both ends.  `stale`: 2^63-1 is an
Unsigned if `errno` was `ERANGE` before. -/
def integerOf (stale : Bool) (i : Int) : Val :=
  if i < -2 ^ 63 then .int (Int64.ofInt (-2 ^ 63))
  else if i < 2 ^ 63 - 1 then .int (Int64.ofInt i)
  else if i = 2 ^ 63 - 1 then (if stale then .uint (UInt64.ofNat (2 ^ 63 - 1)) else .int (Int64.ofInt i))
  else if i < 2 ^ 64 then .uint (UInt64.ofNat i.toNat)
  else .uint (UInt64.ofNat (2 ^ 64 - 1))

/-- C82.  The text of an `integer` element is read as the decimal number it begins with, behind any blanks, whatever
follows it; numbers that do not fit become the nearest ones that do. -/
theorem integer_read (stale : Bool) (i : Int) (hi : i ≠ 0) {bl junk : Bytes} (hb : ∀ c ∈ bl, isSpace c = true)
    (hj : ∀ c, junk.head? = some c → isDigit c = false) :
    readInt stale (bl ++ (decimal i ++ junk)) = integerOf stale i := by
  have hdig : ∀ b : UInt8, isDigit b = true → isSpace b = false ∧ b ≠ 45 ∧ b ≠ 43 := byte_all (by decide +kernel)
  have hpos : 0 < i.natAbs := by omega
  by_cases hn : i < 0
  · have e : (bl ++ (decimal i ++ junk)).dropWhile isSpace = 45 :: (natDec i.natAbs ++ junk) := by
      rw [decimal, if_pos hn]
      refine dropWhile_blanks hb ?_
      intro c hc; cases hc; rfl
    rw [readInt_neg (t := natDec i.natAbs ++ junk) (by rw [e, Ext.sign, if_pos rfl]) (magnitude_stop hpos hj), integerOf]
    by_cases h1 : i < -2 ^ 63
    · rw [if_pos h1, if_neg (show ¬ i.natAbs ≤ 2 ^ 63 by omega)]
    · rw [if_neg h1, if_pos (show i.natAbs ≤ 2 ^ 63 by omega), if_pos (show i < 2 ^ 63 - 1 by omega)]
      congr 2
      omega
  · obtain ⟨b, bs, e0, hd⟩ := Ext.natDec_cons i.natAbs
    have hbd := hdig b hd
    have e : (bl ++ (decimal i ++ junk)).dropWhile isSpace = natDec i.natAbs ++ junk := by
      rw [decimal, if_neg hn]
      refine dropWhile_blanks hb ?_
      rw [e0]
      intro c hc; cases hc; exact hbd.1
    have es : Ext.sign (natDec i.natAbs ++ junk) = (false, natDec i.natAbs ++ junk) := by
      rw [e0, List.cons_append, Ext.sign, if_neg hbd.2.1, if_neg hbd.2.2]
    rw [readInt_pos (by rw [e, es]) (magnitude_stop hpos hj), integerOf, if_neg (show ¬ i < -2 ^ 63 by omega)]
    have ei : (i.natAbs : Int) = i := by omega
    by_cases h1 : i < 2 ^ 63 - 1
    · rw [if_pos h1, if_pos (show i.natAbs < 2 ^ 63 - 1 by omega), ei]
    · rw [if_neg h1, if_neg (show ¬ i.natAbs < 2 ^ 63 - 1 by omega)]
      by_cases h2 : i = 2 ^ 63 - 1
      · rw [if_pos h2, if_pos (show i.natAbs = 2 ^ 63 - 1 by omega), ei]
      · rw [if_neg h2, if_neg (show ¬ i.natAbs = 2 ^ 63 - 1 by omega)]
        by_cases h3 : i < 2 ^ 64
        · rw [if_pos h3, if_pos (show i.natAbs < 2 ^ 64 by omega), show i.toNat = i.natAbs by omega]
        · rw [if_neg h3, if_neg (show ¬ i.natAbs < 2 ^ 64 by omega)]

theorem readInt_of {stale : Bool} {s t : Bytes} {neg : Bool} {n : Nat} (hs : Ext.sign (s.dropWhile isSpace) = (neg, t)) (hm : magnitude t = n) :
    readInt stale s = integerOf stale (if neg then -(n : Int) else n) := by
  cases neg with
  | true =>
    rw [readInt_neg hs hm, if_pos rfl, integerOf]
    by_cases h1 : n ≤ 2 ^ 63
    · rw [if_pos h1, if_neg (show ¬ -(n : Int) < -2 ^ 63 by omega), if_pos (show -(n : Int) < 2 ^ 63 - 1 by omega)]
    · rw [if_neg h1, if_pos (show -(n : Int) < -2 ^ 63 by omega)]
  | false =>
    rw [readInt_pos hs hm, if_neg (show ¬ false = true by nofun), integerOf, if_neg (show ¬ (n : Int) < -2 ^ 63 by omega)]
    by_cases h1 : n < 2 ^ 63 - 1
    · rw [if_pos h1, if_pos (show (n : Int) < 2 ^ 63 - 1 by omega)]
    · rw [if_neg h1, if_neg (show ¬ (n : Int) < 2 ^ 63 - 1 by omega)]
      by_cases h2 : n = 2 ^ 63 - 1
      · rw [if_pos h2, if_pos (show (n : Int) = 2 ^ 63 - 1 by omega)]
      · rw [if_neg h2, if_neg (show ¬ (n : Int) = 2 ^ 63 - 1 by omega)]
        by_cases h3 : n < 2 ^ 64
        · rw [if_pos h3, if_pos (show (n : Int) < 2 ^ 64 by omega), Int.toNat_natCast]
        · rw [if_neg h3, if_neg (show ¬ (n : Int) < 2 ^ 64 by omega)]

/-- `c` is the digit `d` in a base up to 16. -/
def DigitIs (base : Nat) (c : UInt8) (d : Nat) : Prop :=
  d < base ∧ (d < 10 ∧ c.toNat = 48 + d ∨ 10 ≤ d ∧ (c.toNat = 87 + d ∨ c.toNat = 55 + d))

/-- Digits, most significant first, and their value. -/
inductive DigitsAre (base : Nat) : Bytes → Nat → Prop
  | nil : DigitsAre base [] 0
  | snoc {t n c d} : DigitsAre base t n → DigitIs base c d → DigitsAre base (t ++ [c]) (n * base + d)

theorem hexVal_digit {c : UInt8} {d : Nat} (h : DigitIs 16 c d) : Guess.hexVal c = some d := by
  obtain ⟨h1, h2⟩ := h
  rw [Guess.hexVal]
  have a : ∀ n : Nat, n < 256 → ∀ m : UInt8, m.toNat = n → (m ≤ c ↔ n ≤ c.toNat) ∧ (c ≤ m ↔ c.toNat ≤ n) := by
    intro n _ m hm
    subst hm
    exact ⟨UInt8.le_iff_toNat_le, UInt8.le_iff_toNat_le⟩
  simp only [(a 48 (by decide) 48 rfl).1, (a 57 (by decide) 57 rfl).2, (a 65 (by decide) 65 rfl).1, (a 70 (by decide) 70 rfl).2,
    (a 97 (by decide) 97 rfl).1, (a 102 (by decide) 102 rfl).2]
  rcases h2 with ⟨h2, h3⟩ | ⟨h2, h3 | h3⟩
  · rw [if_pos (by omega)]; congr 1; omega
  · rw [if_neg (by omega), if_neg (by omega), if_pos (by omega)]; congr 1; omega
  · rw [if_neg (by omega), if_pos (by omega)]; congr 1; omega

theorem octDigit_digit {c : UInt8} {d : Nat} (h : DigitIs 8 c d) : octDigit c = some d := by
  obtain ⟨h1, h2⟩ := h
  have h3 : c.toNat = 48 + d := by
    rcases h2 with ⟨_, h⟩ | ⟨h, _⟩
    · exact h
    · omega
  rw [octDigit, Guess.isOct, if_pos]
  · congr 1; omega
  · simp only [Bool.and_eq_true, decide_eq_true_eq, UInt8.le_iff_toNat_le]
    exact ⟨by rw [h3]; exact Nat.le_add_right _ _, by rw [h3]; have : (55 : UInt8).toNat = 55 := rfl; omega⟩

theorem digitsVal_append {base : Nat} {f : UInt8 → Option Nat} : ∀ {t u : Bytes} {acc : Nat} (_ : ∀ c ∈ t, (f c).isSome),
    digitsVal base f acc (t ++ u) = digitsVal base f (digitsVal base f acc t) u
  | [], _, _, _ => rfl
  | c :: t, u, acc, h => by
    obtain ⟨d, hd⟩ := Option.isSome_iff_exists.1 (h c (.head _))
    simp only [List.cons_append, digitsVal, hd]
    exact digitsVal_append (fun x hx => h x (.tail _ hx))

theorem digitsVal_are {base : Nat} {f : UInt8 → Option Nat} (hf : ∀ c d, DigitIs base c d → f c = some d) {t : Bytes} {n : Nat}
    (h : DigitsAre base t n) : (∀ c ∈ t, (f c).isSome) ∧ digitsVal base f 0 t = n := by
  induction h with
  | nil => exact ⟨by nofun, rfl⟩
  | snoc h hc ih =>
    refine ⟨?_, ?_⟩
    · intro x hx
      rcases List.mem_append.1 hx with hx | hx
      · exact ih.1 x hx
      · rw [List.mem_singleton.1 hx, hf _ _ hc]; rfl
    · rw [digitsVal_append ih.1, ih.2]
      simp only [digitsVal, hf _ _ hc]

theorem digitsVal_none {base : Nat} {f : UInt8 → Option Nat} {junk : Bytes} (hj : ∀ c, junk.head? = some c → f c = none) (acc : Nat) :
    digitsVal base f acc junk = acc := by
  cases junk with
  | nil => rfl
  | cons c r => simp only [digitsVal, hj c rfl]

/-- A sign: none, `-` or `+`. -/
inductive SignIs : Bytes → Bool → Prop
  | none : SignIs [] false
  | minus : SignIs [45] true
  | plus : SignIs [43] false

theorem sign_zero {bl sg : Bytes} {neg : Bool} (hb : ∀ c ∈ bl, isSpace c = true) (hs : SignIs sg neg) (r : Bytes) :
    Ext.sign ((bl ++ (sg ++ 48 :: r)).dropWhile isSpace) = (neg, 48 :: r) := by
  rw [dropWhile_blanks hb]
  · cases hs <;> rfl
  · cases hs <;> (intro c hc; cases hc; rfl)

/-- C82.  A hexadecimal integer, `0x` or `0X` and at least one digit, is read as its value. -/
theorem hex_read (stale : Bool) {bl sg t junk : Bytes} {neg : Bool} {n : Nat} {x : UInt8} (hb : ∀ c ∈ bl, isSpace c = true) (hs : SignIs sg neg)
    (hx : x = 120 ∨ x = 88) (ht : DigitsAre 16 t n) (hne : t ≠ []) (hj : ∀ c, junk.head? = some c → ∀ d, ¬ DigitIs 16 c d) :
    readInt stale (bl ++ (sg ++ 48 :: x :: (t ++ junk))) = integerOf stale (if neg then -(n : Int) else n) := by
  refine readInt_of (sign_zero hb hs _) ?_
  obtain ⟨h1, h2⟩ := digitsVal_are (fun _ _ => hexVal_digit) ht
  have h3 : ∀ c, junk.head? = some c → Guess.hexVal c = none := by
    intro c hc
    have : ∀ c, (Guess.hexVal c = none) ∨ ∃ d, DigitIs 16 c d := by
      intro c
      rw [Guess.hexVal]
      simp only [UInt8.le_iff_toNat_le, UInt8.toNat_ofNat]
      split
      · exact .inr ⟨c.toNat - 48, by omega, .inl ⟨by omega, by omega⟩⟩
      · split
        · exact .inr ⟨c.toNat - 55, by omega, .inr ⟨by omega, by omega⟩⟩
        · split
          · exact .inr ⟨c.toNat - 87, by omega, .inr ⟨by omega, by omega⟩⟩
          · exact .inl rfl
    rcases this c with h | ⟨d, h⟩
    · exact h
    · exact absurd h (hj c hc d)
  cases t with
  | nil => exact absurd rfl hne
  | cons c t =>
    rw [List.cons_append, magnitude, if_pos ⟨hx, h1 c (.head _)⟩, ← List.cons_append, digitsVal_append h1, h2, digitsVal_none h3]

/-- C82.  An integer with a leading 0 is octal and read as its value; 0 itself is 0. -/
theorem octal_read (stale : Bool) {bl sg t junk : Bytes} {neg : Bool} {n : Nat} (hb : ∀ c ∈ bl, isSpace c = true) (hs : SignIs sg neg)
    (ht : DigitsAre 8 t n) (hj : ∀ c, junk.head? = some c → c ≠ 120 ∧ c ≠ 88 ∧ ∀ d, ¬ DigitIs 8 c d) :
    readInt stale (bl ++ (sg ++ 48 :: (t ++ junk))) = integerOf stale (if neg then -(n : Int) else n) := by
  refine readInt_of (sign_zero hb hs _) ?_
  obtain ⟨h1, h2⟩ := digitsVal_are (fun _ _ => octDigit_digit) ht
  have h3 : ∀ c, junk.head? = some c → octDigit c = none := by
    intro c hc
    rw [octDigit, Guess.isOct]
    simp only [Bool.and_eq_true, decide_eq_true_eq, UInt8.le_iff_toNat_le, UInt8.toNat_ofNat]
    split
    · exact absurd ⟨by omega, .inl ⟨by omega, by omega⟩⟩ ((hj c hc).2.2 (c.toNat - 48))
    · rfl
  have h4 : ∀ c, (t ++ junk).head? = some c → ¬ (c = 120 ∨ c = 88) := by
    intro c hc
    cases t with
    | nil => exact not_or.2 ⟨(hj c hc).1, (hj c hc).2.1⟩
    | cons b t =>
      cases hc
      have := h1 c (.head _)
      rintro (rfl | rfl) <;> exact absurd this (by decide)
  have h5 : digitsVal 8 octDigit 0 (t ++ junk) = n := by rw [digitsVal_append h1, h2, digitsVal_none h3]
  cases hu : t ++ junk with
  | nil => rw [← h5, hu]; rfl
  | cons c r =>
    cases r with
    | nil => rw [← h5, hu]; rfl
    | cons d r =>
      rw [hu] at h4
      rw [magnitude, if_neg (fun h => h4 c rfl h.1), ← h5, hu]

/-- `0xFf;`, ` -017` and `+0` are such texts. -/
example : DigitsAre 16 [70, 102] 255 ∧ DigitsAre 8 [49, 55] 15 ∧ SignIs [43] false :=
  ⟨.snoc (.snoc .nil (d := 15) ⟨by decide, .inr (by decide)⟩) (d := 15) ⟨by decide, .inr (by decide)⟩,
    .snoc (.snoc .nil (d := 1) ⟨by decide, .inl (by decide)⟩) (d := 7) ⟨by decide, .inl (by decide)⟩, .plus⟩

/-- C82, finding: a text that is no number at all is read as 0, without complaint. -/
theorem not_integer_zero (c : UInt8) (r : Bytes) (stale : Bool) (h : isSpace c = false ∧ c ≠ 45 ∧ c ≠ 43 ∧ isDigit c = false) :
    readInt stale (c :: r) = .int 0 := by
  obtain ⟨h1, h2, h3, h4⟩ := h
  have hm : magnitude (c :: r) = 0 := by
    unfold magnitude
    split
    · rename_i e; cases e; cases h4
    · rename_i e; cases e; cases h4
    · rw [digitsVal, decDigit, if_neg (by rw [h4]; nofun)]
  have hs : Ext.sign ((c :: r).dropWhile isSpace) = (false, c :: r) := by
    rw [List.dropWhile_cons, if_neg (by rw [h1]; exact Bool.false_ne_true), Ext.sign, if_neg h2, if_neg h3]
  rw [readInt_pos hs hm]
  rfl

end Verif.Xml
