import Verif.Event.Props
import Verif.Build.Props
import Verif.Val.CompareProps
/-!
# MessagePack: writing a value and reading it back (C53)

The emitter is `Verif/Event/Model.lean`.  Reading is src/MsgPackParser.cc: the callbacks there
are driven by the msgpack library's unpacker (`msgpack/unpack_template.h`, not part of the
repository).  The bytes in between are the library's; here its unpacker is described on the
sequence of objects the packer was asked to write: it makes one callback per object, keeps a
stack of open containers with the number of items still to come, calls the item callback when
an item is complete, and refuses to nest deeper than its fixed stack (`maxDepth`,
`MSGPACK_EMBED_STACK_SIZE`).
-/

namespace Verif.Event

open Verif.Build (PEv BState)

/-! ## Emitting a value -/

mutual
/-- `operator<<(Emitter&, const Variant&)` (src/VariantEmitting.cc 28-66) and the container
overloads (include/Variant/Emitter.h 110-131), which announce `(int)v.size()`. -/
def valTree : Val → Tree
  | .null => .atom .null
  | .bool b => .atom (.bool b)
  | .int i => .atom (.int i)
  | .uint u => .atom (.uint u)
  | .flt d => .atom (.flt d)
  | .str s => .atom (.str s)
  | .blob s => .atom (.blob s)
  | .list xs => .list (toInt32 xs.length) (valTrees xs)
  | .map m => .map (toInt32 m.length) (valPairs m)
def valTrees : List Val → List Tree
  | [] => []
  | x :: xs => valTree x :: valTrees xs
def valPairs : List (Bytes × Val) → List (Tree × Tree)
  | [] => []
  | (k, x) :: m => (.atom (.str k), valTree x) :: valPairs m
end

/-- `SerializeMsgPack`: the objects written (src/VariantEmitting.cc 90-95). -/
def serialize (v : Val) : Option (List Pk) := (mpAll 1 MP.init (valTree v).calls).map (·.out)

/-! ## Reading -/

/-- An open container: kind, whether a map value (rather than a key) is expected, the library's
count of items to come and the callback's own count (src/MsgPackParser.cc 17-20). -/
structure UFrame where
  isMap : Bool
  value : Bool
  count : Nat
  user : Nat
  deriving Repr, DecidableEq

/-- An object is complete: the item callbacks (src/MsgPackParser.cc 137-144, 156-164: `count--`,
at zero `EndList`/`EndMap`) and the library's own count, which closes the container and makes it
an item of the one around it.  `none`: the outermost object is complete. -/
def complete : List UFrame → List PEv × Option (List UFrame)
  | [] => ([], none)
  | f :: fs =>
    if f.isMap = true ∧ f.value = false then ([], some ({ f with value := true } :: fs))
    else
      let user := f.user - 1
      let ev := if user = 0 then [if f.isMap then PEv.endMap else PEv.endList] else []
      if f.count - 1 = 0 then
        let (ev', r) := complete fs
        (ev ++ ev', r)
      else (ev, some ({ f with value := false, count := f.count - 1, user := user } :: fs))

/-- The raw callback (src/MsgPackParser.cc 166-176): a leading blob tag makes a blob. -/
def rawValue (s : Bytes) : Val :=
  if s.length ≥ 5 ∧ s.take 5 = blobTag then .blob [s.drop 5] else .str s

/-- One object: the callbacks made (src/MsgPackParser.cc 49-176) and the open containers.
`msgpack_pack_int64` writes non-negative numbers in the unsigned formats, so they come back
through the unsigned callbacks.  A raw header that disagrees with the data is not modelled. -/
def ustep (maxDepth : Nat) (fs : List UFrame) : Pk → Option (List PEv × Option (List UFrame))
  | .nil => some (let (e, r) := complete fs; (.scalar .null :: e, r))
  | .bool b => some (let (e, r) := complete fs; (.scalar (.bool b) :: e, r))
  | .string s => some (let (e, r) := complete fs; (.scalar (rawValue s) :: e, r))
  | .int64 i => some (let (e, r) := complete fs
      (.scalar (if 0 ≤ i.toInt then .uint i.toUInt64 else .int i) :: e, r))
  | .uint64 u => some (let (e, r) := complete fs; (.scalar (.uint u) :: e, r))
  | .double d => some (let (e, r) := complete fs; (.scalar (.flt d) :: e, r))
  | .raw n body =>
    if n = body.length then some (let (e, r) := complete fs; (.scalar (rawValue body) :: e, r))
    else none
  | .array n =>
    if n = 0 then some (let (e, r) := complete fs; (.beginList :: .endList :: e, r))
    else if fs.length < maxDepth then some ([.beginList], some (⟨false, false, n, n⟩ :: fs))
    else none
  | .map n =>
    if n = 0 then some (let (e, r) := complete fs; (.beginMap :: .endMap :: e, r))
    else if fs.length < maxDepth then some ([.beginMap], some (⟨true, false, n, n⟩ :: fs))
    else none

/-- The loop of `Run` (src/MsgPackParser.cc 194-240) until the outermost object is complete: the
callbacks made and the objects left unread; `none` for an error (too deep, data ended). -/
def unpack (maxDepth : Nat) (fs : List UFrame) : List Pk → Option (List PEv × List Pk)
  | [] => none
  | pk :: rest =>
    match ustep maxDepth fs pk with
    | none => none
    | some (ev, none) => some (ev, rest)
    | some (ev, some fs') =>
      match unpack maxDepth fs' rest with
      | none => none
      | some (ev', r) => some (ev ++ ev', r)

/-- `DeserializeMsgPack`: the events of one document handed to the value builder. -/
def deserialize (maxDepth : Nat) (ft : UInt64 → Bytes) (pks : List Pk) : Option (Out BState) :=
  (unpack maxDepth [] pks).map fun (ev, _) =>
    Build.events ft BState.init (.beginDoc :: (ev ++ [.endDoc]))

/-! ## Specification -/

mutual
/-- The value read back: non-negative Integers come back as Unsigned and blobs as one buffer. -/
def mpBack : Val → Val
  | .int i => if 0 ≤ i.toInt then .uint i.toUInt64 else .int i
  | .blob s => .blob [s.flatten]
  | .list xs => .list (mpBackList xs)
  | .map m => .map (mpBackMap m)
  | .null => .null
  | .bool b => .bool b
  | .uint u => .uint u
  | .flt d => .flt d
  | .str s => .str s
def mpBackList : List Val → List Val
  | [] => []
  | x :: xs => mpBack x :: mpBackList xs
def mpBackMap : List (Bytes × Val) → List (Bytes × Val)
  | [] => []
  | (k, x) :: m => (k, mpBack x) :: mpBackMap m
end

mutual
/-- What the format carries: strings and keys without NUL, containers below 2^31 elements, blobs
below 2^32 - 5 bytes. -/
def Carried : Val → Prop
  | .str s => (0 : UInt8) ∉ s
  | .blob s => s.flatten.length + 5 < 2 ^ 32
  | .list xs => xs.length < 2 ^ 31 ∧ CarriedList xs
  | .map m => m.length < 2 ^ 31 ∧ CarriedMap m
  | .null => True
  | .bool _ => True
  | .int _ => True
  | .uint _ => True
  | .flt _ => True
def CarriedList : List Val → Prop
  | [] => True
  | x :: xs => Carried x ∧ CarriedList xs
def CarriedMap : List (Bytes × Val) → Prop
  | [] => True
  | (k, x) :: m => (0 : UInt8) ∉ k ∧ Carried x ∧ CarriedMap m
end

mutual
/-- Nesting depth, an empty container counting as a scalar. -/
def nesting : Val → Nat
  | .list [] => 0
  | .list (x :: xs) => max (nesting x) (nestingList xs) + 1
  | .map [] => 0
  | .map ((_, x) :: m) => max (nesting x) (nestingMap m) + 1
  | .null => 0
  | .bool _ => 0
  | .int _ => 0
  | .uint _ => 0
  | .flt _ => 0
  | .str _ => 0
  | .blob _ => 0
def nestingList : List Val → Nat
  | [] => 0
  | x :: xs => max (nesting x) (nestingList xs)
def nestingMap : List (Bytes × Val) → Nat
  | [] => 0
  | (_, x) :: m => max (nesting x) (nestingMap m)
end

/-! ## Proof -/

theorem nesting_list {x : Val} {xs : List Val} : nesting (.list (x :: xs)) = nestingList (x :: xs) + 1 := by
  rw [nesting, nestingList]

theorem nesting_map {p : Bytes × Val} {m : List (Bytes × Val)} :
    nesting (.map (p :: m)) = nestingMap (p :: m) + 1 := by
  obtain ⟨k, x⟩ := p
  rw [nesting, nestingMap]

theorem valTrees_length : ∀ xs : List Val, (valTrees xs).length = xs.length
  | [] => rfl
  | _ :: xs => by simp [valTrees, valTrees_length xs]

theorem valPairs_length : ∀ m : List (Bytes × Val), (valPairs m).length = m.length
  | [] => rfl
  | (_, _) :: m => by simp [valPairs, valPairs_length m]

mutual
theorem valTree_ok : ∀ v : Val, Carried v → (valTree v).Small ∧ (valTree v).Honest
  | .null, _ => ⟨trivial, trivial⟩
  | .bool _, _ => ⟨trivial, trivial⟩
  | .int _, _ => ⟨trivial, trivial⟩
  | .uint _, _ => ⟨trivial, trivial⟩
  | .flt _, _ => ⟨trivial, trivial⟩
  | .str _, _ => ⟨trivial, trivial⟩
  | .blob _, _ => ⟨trivial, trivial⟩
  | .list xs, h => by
    simp only [Carried] at h
    obtain ⟨h1, h2⟩ := valTrees_ok xs h.2
    simp only [valTree, Tree.Small, Tree.Honest, valTrees_length]
    exact ⟨⟨h.1, h1⟩, .inr (toInt32_small h.1), h2⟩
  | .map m, h => by
    simp only [Carried] at h
    obtain ⟨h1, h2⟩ := valPairs_ok m h.2
    simp only [valTree, Tree.Small, Tree.Honest, valPairs_length]
    exact ⟨⟨h.1, h1⟩, .inr (toInt32_small h.1), h2⟩
theorem valTrees_ok : ∀ xs : List Val, CarriedList xs → SmallList (valTrees xs) ∧ HonestList (valTrees xs)
  | [], _ => ⟨trivial, trivial⟩
  | x :: xs, h => by
    simp only [CarriedList] at h
    obtain ⟨h1, h2⟩ := valTree_ok x h.1
    obtain ⟨h3, h4⟩ := valTrees_ok xs h.2
    exact ⟨⟨h1, h3⟩, h2, h4⟩
theorem valPairs_ok : ∀ m : List (Bytes × Val), CarriedMap m → SmallPairs (valPairs m) ∧ HonestPairs (valPairs m)
  | [], _ => ⟨trivial, trivial⟩
  | (k, x) :: m, h => by
    simp only [CarriedMap] at h
    obtain ⟨h1, h2⟩ := valTree_ok x h.2.1
    obtain ⟨h3, h4⟩ := valPairs_ok m h.2.2
    exact ⟨⟨trivial, h1, h3⟩, trivial, h2, h4⟩
end

theorem serialize_eq (v : Val) (h : Carried v) : serialize v = some (valTree v).packed := by
  obtain ⟨h1, h2⟩ := valTree_ok v h
  have := mp_tree 0 (valTree v) [] h1 h2
  rw [serialize, MP.init, this]
  simp

/-- Continue after an object is complete. -/
def after (D : Nat) (fs : List UFrame) (rest : List Pk) : Option (List PEv × List Pk) :=
  match complete fs with
  | (ev, none) => some (ev, rest)
  | (ev, some fs') => match unpack D fs' rest with
    | none => none
    | some (ev', r) => some (ev ++ ev', r)

/-- Put events in front. -/
def front (ev : List PEv) (r : Option (List PEv × List Pk)) : Option (List PEv × List Pk) :=
  r.map fun p => (ev ++ p.1, p.2)

theorem front_front (a b : List PEv) (r : Option (List PEv × List Pk)) :
    front a (front b r) = front (a ++ b) r := by
  cases r <;> simp [front]

theorem unpack_complete (D : Nat) (fs : List UFrame) (pk : Pk) (rest : List Pk) (ev : List PEv)
    (h : ustep D fs pk = some (ev ++ (complete fs).1, (complete fs).2)) :
    unpack D fs (pk :: rest) = front ev (after D fs rest) := by
  rw [unpack, h, after]
  rcases complete fs with ⟨e, _ | fs'⟩
  · simp [front]
  · simp only
    cases unpack D fs' rest <;> simp [front]

theorem unpack_open (D : Nat) (fs fs' : List UFrame) (pk : Pk) (rest : List Pk) (ev : List PEv)
    (h : ustep D fs pk = some (ev, some fs')) :
    unpack D fs (pk :: rest) = front ev (unpack D fs' rest) := by
  rw [unpack, h]
  simp only
  cases unpack D fs' rest <;> simp [front]

theorem after_last_list (D : Nat) (fs : List UFrame) (rest : List Pk) :
    after D (⟨false, false, 1, 1⟩ :: fs) rest = front [.endList] (after D fs rest) := by
  rw [after, after]
  simp only [complete]
  rcases complete fs with ⟨e, _ | fs'⟩
  · simp [front]
  · simp only [Bool.false_eq_true, false_and, ↓reduceIte]
    cases unpack D fs' rest <;> simp [front]

theorem after_more_list (D n : Nat) (fs : List UFrame) (rest : List Pk) :
    after D (⟨false, false, n + 2, n + 2⟩ :: fs) rest = unpack D (⟨false, false, n + 1, n + 1⟩ :: fs) rest := by
  rw [after]
  simp only [complete, Bool.false_eq_true, false_and, ↓reduceIte, Nat.add_one_sub_one, Nat.add_eq_zero_iff,
    Nat.succ_ne_self, and_false]
  cases unpack D (⟨false, false, n + 1, n + 1⟩ :: fs) rest <;> simp

theorem after_key (D n : Nat) (fs : List UFrame) (rest : List Pk) :
    after D (⟨true, false, n, n⟩ :: fs) rest = unpack D (⟨true, true, n, n⟩ :: fs) rest := by
  rw [after]
  simp only [complete, and_self, ↓reduceIte]
  cases unpack D (⟨true, true, n, n⟩ :: fs) rest <;> simp

theorem after_last_map (D : Nat) (fs : List UFrame) (rest : List Pk) :
    after D (⟨true, true, 1, 1⟩ :: fs) rest = front [.endMap] (after D fs rest) := by
  rw [after, after]
  simp only [complete]
  rcases complete fs with ⟨e, _ | fs'⟩
  · simp [front]
  · simp only [Bool.true_eq_false, and_false, ↓reduceIte]
    cases unpack D fs' rest <;> simp [front]

theorem after_more_map (D n : Nat) (fs : List UFrame) (rest : List Pk) :
    after D (⟨true, true, n + 2, n + 2⟩ :: fs) rest = unpack D (⟨true, false, n + 1, n + 1⟩ :: fs) rest := by
  rw [after]
  simp only [complete, Bool.true_eq_false, and_false, ↓reduceIte, Nat.add_one_sub_one, Nat.add_eq_zero_iff,
    Nat.succ_ne_self]
  cases unpack D (⟨true, false, n + 1, n + 1⟩ :: fs) rest <;> simp

theorem takeWhile_plain {s : Bytes} (h : (0 : UInt8) ∉ s) : s.takeWhile (· ≠ 0) = s := by
  induction s with
  | nil => rfl
  | cons c cs ih =>
    rw [List.mem_cons, not_or] at h
    rw [List.takeWhile_cons_of_pos (by simpa using Ne.symm h.1), ih h.2]

theorem rawValue_plain {s : Bytes} (h : (0 : UInt8) ∉ s) : rawValue s = .str s := by
  rw [rawValue, if_neg]
  rintro ⟨h1, h2⟩
  refine h (List.mem_of_mem_take (i := 5) ?_)
  rw [h2]; simp [blobTag]

theorem rawValue_blob (s : Bytes) : rawValue (0 :: 0x42 :: 0x4C :: 0x4F :: 0x42 :: s) = .blob [s] := by
  simp [rawValue, blobTag]

theorem unpack_atom (D : Nat) (fs : List UFrame) (a : Atom) (w : Val) (rest : List Pk)
    (h : ustep D fs a.packed = some (PEv.scalar w :: (complete fs).1, (complete fs).2)) :
    unpack D fs ((Tree.atom a).packed ++ rest) = front [.scalar w] (after D fs rest) := by
  simp only [Tree.packed, List.cons_append, List.nil_append]
  exact unpack_complete D fs _ rest [.scalar w] h

mutual
theorem unpack_val (D : Nat) : ∀ (v : Val) (fs : List UFrame) (rest : List Pk), Carried v →
    nesting v + fs.length ≤ D →
    unpack D fs ((valTree v).packed ++ rest) = front (Build.treeOf (mpBack v)).events (after D fs rest)
  | .null, fs, rest, _, _ => by exact unpack_atom D fs .null .null rest rfl
  | .bool b, fs, rest, _, _ => by
    simp only [mpBack]; exact unpack_atom D fs (.bool b) (.bool b) rest rfl
  | .int i, fs, rest, _, _ => by
    have := unpack_atom D fs (.int i) (if 0 ≤ i.toInt then .uint i.toUInt64 else .int i) rest rfl
    simp only [valTree, this, mpBack]
    split <;> rfl
  | .uint u, fs, rest, _, _ => by
    simp only [mpBack]; exact unpack_atom D fs (.uint u) (.uint u) rest rfl
  | .flt u, fs, rest, _, _ => by
    simp only [mpBack]; exact unpack_atom D fs (.flt u) (.flt u) rest rfl
  | .str s, fs, rest, h, _ => by
    simp only [Carried] at h
    simp only [mpBack, valTree]
    refine unpack_atom D fs (.str s) (.str s) rest ?_
    simp only [Atom.packed, ustep]
    rw [takeWhile_plain h, rawValue_plain h]
  | .blob s, fs, rest, h, _ => by
    simp only [Carried] at h
    simp only [mpBack, valTree]
    refine unpack_atom D fs (.blob s) (.blob [s.flatten]) rest ?_
    simp only [Atom.packed, ustep]
    rw [if_pos (by rw [Nat.mod_eq_of_lt h]; simp), rawValue_blob]
  | .list [], fs, rest, _, _ => by
    simp only [valTree, valTrees, Tree.packed, packedList, mpBack, mpBackList, Build.treeOf,
      Build.treeOfList, Build.ETree.events, Build.eventsList, List.cons_append, List.nil_append]
    exact unpack_complete D fs _ rest [.beginList, .endList] rfl
  | .list (x :: xs), fs, rest, h, hd => by
    have hd' := hd
    rw [nesting_list] at hd'
    simp only [Carried] at h
    have hl := unpack_list D (x :: xs) fs rest h.2 (by simp) (by omega)
    simp only [valTree, Tree.packed, mpBack, Build.treeOf, Build.ETree.events, List.cons_append]
    rw [unpack_open D fs (⟨false, false, (x :: xs).length, (x :: xs).length⟩ :: fs) _ _ [.beginList], hl,
      front_front]
    · rfl
    · rw [valTrees_length]
      simp only [ustep, List.length_cons, Nat.add_eq_zero_iff, Nat.succ_ne_self, and_false, ↓reduceIte]
      rw [if_pos (by omega)]
  | .map [], fs, rest, _, _ => by
    simp only [valTree, valPairs, Tree.packed, packedPairs, mpBack, mpBackMap, Build.treeOf,
      Build.treeOfMap, Build.ETree.events, Build.eventsMap, List.cons_append, List.nil_append]
    exact unpack_complete D fs _ rest [.beginMap, .endMap] rfl
  | .map (p :: m), fs, rest, h, hd => by
    have hd' := hd
    rw [nesting_map] at hd'
    simp only [Carried] at h
    have hl := unpack_pairs D (p :: m) fs rest h.2 (by simp) (by omega)
    simp only [valTree, Tree.packed, mpBack, Build.treeOf, Build.ETree.events, List.cons_append]
    rw [unpack_open D fs (⟨true, false, (p :: m).length, (p :: m).length⟩ :: fs) _ _ [.beginMap], hl,
      front_front]
    · rfl
    · rw [valPairs_length]
      simp only [ustep, List.length_cons, Nat.add_eq_zero_iff, Nat.succ_ne_self, and_false, ↓reduceIte]
      rw [if_pos (by omega)]
termination_by v => (sizeOf v, 0)
theorem unpack_list (D : Nat) : ∀ (xs : List Val) (fs : List UFrame) (rest : List Pk), CarriedList xs →
    xs ≠ [] → nestingList xs + (fs.length + 1) ≤ D →
    unpack D (⟨false, false, xs.length, xs.length⟩ :: fs) (packedList (valTrees xs) ++ rest) =
      front (Build.eventsList (Build.treeOfList (mpBackList xs)) ++ [.endList]) (after D fs rest)
  | [], _, _, _, hn, _ => absurd rfl hn
  | x :: xs, fs, rest, h, _, hd => by
    simp only [CarriedList] at h
    simp only [nestingList] at hd
    have h1 := unpack_val D x (⟨false, false, (x :: xs).length, (x :: xs).length⟩ :: fs)
      (packedList (valTrees xs) ++ rest) h.1 (by simp only [List.length_cons]; omega)
    simp only [valTrees, packedList, mpBackList, Build.treeOfList, Build.eventsList, List.append_assoc]
    rw [h1]
    cases xs with
    | nil =>
      simp only [List.length_cons, List.length_nil, Nat.zero_add, valTrees, packedList, List.nil_append,
        after_last_list, mpBackList, Build.treeOfList, Build.eventsList]
      rw [front_front]
    | cons y ys =>
      have h2 := unpack_list D (y :: ys) fs rest h.2 (by simp) (by omega)
      have e : (x :: y :: ys).length = ys.length + 2 := rfl
      rw [e, after_more_list]
      have e2 : (y :: ys).length = ys.length + 1 := rfl
      rw [e2] at h2
      rw [h2, front_front]
termination_by xs => (sizeOf xs, 1)
theorem unpack_pairs (D : Nat) : ∀ (m : List (Bytes × Val)) (fs : List UFrame) (rest : List Pk), CarriedMap m →
    m ≠ [] → nestingMap m + (fs.length + 1) ≤ D →
    unpack D (⟨true, false, m.length, m.length⟩ :: fs) (packedPairs (valPairs m) ++ rest) =
      front (Build.eventsMap (Build.treeOfMap (mpBackMap m)) ++ [.endMap]) (after D fs rest)
  | [], _, _, _, hn, _ => absurd rfl hn
  | (k, x) :: m, fs, rest, h, _, hd => by
    simp only [CarriedMap] at h
    simp only [nestingMap] at hd
    have h0 := unpack_atom D (⟨true, false, ((k, x) :: m).length, ((k, x) :: m).length⟩ :: fs) (.str k) (.str k)
      ((valTree x).packed ++ (packedPairs (valPairs m) ++ rest))
      (by simp only [Atom.packed, ustep]; rw [takeWhile_plain h.1, rawValue_plain h.1])
    have h1 := unpack_val D x (⟨true, true, ((k, x) :: m).length, ((k, x) :: m).length⟩ :: fs)
      (packedPairs (valPairs m) ++ rest) h.2.1 (by simp only [List.length_cons]; omega)
    simp only [valPairs, packedPairs, mpBackMap, Build.treeOfMap, Build.eventsMap, List.append_assoc,
      List.cons_append]
    rw [h0, after_key, h1, front_front]
    cases m with
    | nil =>
      simp only [List.length_cons, List.length_nil, Nat.zero_add, valPairs, packedPairs, List.nil_append,
        after_last_map, mpBackMap, Build.treeOfMap, Build.eventsMap]
      rw [front_front]
      simp
    | cons y ys =>
      have h2 := unpack_pairs D (y :: ys) fs rest h.2.2 (by simp) (by omega)
      have e : ((k, x) :: y :: ys).length = ys.length + 2 := rfl
      rw [e, after_more_map]
      have e2 : (y :: ys).length = ys.length + 1 := rfl
      rw [e2] at h2
      rw [h2, front_front]
      simp
termination_by m => (sizeOf m, 1)
end

mutual
theorem mpBack_wf : ∀ v : Val, v.WF → (mpBack v).WF
  | .list xs, h => by
    simp only [Val.WF, mpBack] at h ⊢; exact mpBackList_wf xs h
  | .map m, h => by
    simp only [Val.WF, mpBack] at h ⊢
    exact ⟨sorted_mpBack m h.1, mpBackMap_wf m h.2⟩
  | .null, h => by simpa [mpBack] using h
  | .bool _, h => by simpa [mpBack] using h
  | .int _, _ => by simp only [mpBack]; split <;> simp [Val.WF]
  | .uint _, h => by simpa [mpBack] using h
  | .flt _, h => by simpa [mpBack] using h
  | .str _, h => by simpa [mpBack] using h
  | .blob _, _ => by simp [mpBack, Val.WF]
theorem mpBackList_wf : ∀ xs : List Val, WFList xs → WFList (mpBackList xs)
  | [], _ => by simp [mpBackList, WFList]
  | x :: xs, h => by
    simp only [WFList, mpBackList] at h ⊢
    exact ⟨mpBack_wf x h.1, mpBackList_wf xs h.2⟩
theorem mpBackMap_wf : ∀ m : List (Bytes × Val), WFMap m → WFMap (mpBackMap m)
  | [], _ => by simp [mpBackMap, WFMap]
  | (k, x) :: m, h => by
    simp only [WFMap, mpBackMap] at h ⊢
    exact ⟨mpBack_wf x h.1, mpBackMap_wf m h.2⟩
theorem sorted_mpBack : ∀ m : List (Bytes × Val), AMap.Sorted m → AMap.Sorted (mpBackMap m)
  | [], _ => by simp [mpBackMap, AMap.Sorted]
  | (k, x) :: m, h => by
    simp only [mpBackMap, AMap.Sorted] at h ⊢
    refine ⟨?_, sorted_mpBack m h.2⟩
    intro q hq
    have : ∀ (m : List (Bytes × Val)) (q : Bytes × Val), q ∈ mpBackMap m → ∃ q' ∈ m, q'.1 = q.1 := by
      intro m
      induction m with
      | nil => intro q hq; simp [mpBackMap] at hq
      | cons p m ih =>
        obtain ⟨k', x'⟩ := p
        intro q hq
        simp only [mpBackMap, List.mem_cons] at hq
        rcases hq with rfl | hq
        · exact ⟨(k', x'), by simp, rfl⟩
        · obtain ⟨q', h1, h2⟩ := ih q hq
          exact ⟨q', by simp [h1], h2⟩
    obtain ⟨q', h1, h2⟩ := this m q hq
    have := h.1 q' h1
    rw [h2] at this
    exact this
end

mutual
theorem cmp_mpBack {p : Nat} (hp : 64 ≤ p) : ∀ v : Val, cmp p v (mpBack v) = 0
  | .list xs => by simp only [mpBack, cmp]; rw [if_pos (eqList_mpBack hp xs)]
  | .map m => by simp only [mpBack, cmp]; rw [if_pos (eqMap_mpBack hp m)]
  | .null => cmp_refl p _
  | .bool _ => by simp only [mpBack]; exact cmp_refl p _
  | .int i => by
    simp only [mpBack]
    split
    · rename_i h
      rw [int_compare_by_value hp (a := i.toInt) (b := i.toInt) rfl]
      · simp
      · simp only [intVal, Option.some.injEq]
        have := Int64.toNat_toUInt64_of_le (x := i) (by rw [Int64.le_iff_toInt_le]; exact h)
        rw [this]
        exact Int.toNat_of_nonneg h
    · exact cmp_refl p _
  | .uint _ => by simp only [mpBack]; exact cmp_refl p _
  | .flt _ => by simp only [mpBack]; exact cmp_refl p _
  | .str _ => by simp only [mpBack]; exact cmp_refl p _
  | .blob s => by have := cmp_deepCopy p (.blob s); simpa only [deepCopy, mpBack] using this
theorem eqList_mpBack {p : Nat} (hp : 64 ≤ p) : ∀ xs : List Val, eqList p xs (mpBackList xs) = true
  | [] => by simp [mpBackList, eqList]
  | x :: xs => by simp [mpBackList, eqList, cmp_mpBack hp x, eqList_mpBack hp xs]
theorem eqMap_mpBack {p : Nat} (hp : 64 ≤ p) : ∀ m : List (Bytes × Val), eqMap p m (mpBackMap m) = true
  | [] => by simp [mpBackMap, eqMap]
  | (k, x) :: m => by simp [mpBackMap, eqMap, cmp_mpBack hp x, eqMap_mpBack hp m]
end

/-- C53: a value written with the MessagePack emitter and read back with the MessagePack parser
is the value written, except that non-negative Integers come back as Unsigned and blobs as one
buffer, and it compares equal to the value written.  For every well-formed value the format
carries that is not nested deeper than the library's stack. -/
theorem msgpack_round_trip (D : Nat) (ft : UInt64 → Bytes) (v : Val) (hw : v.WF) (hc : Carried v)
    (hd : nesting v ≤ D) :
    (∃ pks, serialize v = some pks ∧ deserialize D ft pks = some (.ok ⟨[], mpBack v, true⟩)) ∧
    ∀ p, 64 ≤ p → veq p v (mpBack v) = true := by
  refine ⟨⟨_, serialize_eq v hc, ?_⟩, fun p hp => by simp [veq, cmp_mpBack hp]⟩
  have := unpack_val D v [] [] hc (by simpa using hd)
  rw [List.append_nil] at this
  rw [deserialize, this]
  simp only [after, complete, front, Option.map_some, List.append_nil]
  rw [Build.build_replay ft _ (mpBack_wf v hw)]

/-- The nesting restriction is needed: one level more than the library's stack is refused. -/
theorem msgpack_too_deep (ft : UInt64 → Bytes) :
    (serialize (.list [.list [.null]])).bind (deserialize 1 ft) = none := by
  rw [serialize_eq _ (by simp [Carried, CarriedList])]
  rfl

example (ft) := msgpack_round_trip 32 ft
  (.map [([97], .list [.int 5, .int (-5), .list []]), ([98], .blob [[1], [], [2, 3]])])
  (by simp [Val.WF, WFMap, WFList, AMap.Sorted, AMap.above, keyLt])
  (by simp [Carried, CarriedMap, CarriedList])
  (by decide)

end Verif.Event
