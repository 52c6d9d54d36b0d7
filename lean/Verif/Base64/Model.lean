import Verif.Base.Outcome
/-!
# Model of `src/Base64.cc`

A blob is given to the encoder as an `iovec` array: the model keeps the list of slab
contents.  Lengths are assumed to be below 2^32 (`unsigned offset`, `unsigned len`), the
32-bit wrap-around of the size computations is modelled.
-/

namespace Verif.B64

/-- `iov_iterator` (src/Base64.cc 14-54): the slabs from the current one on, and the offset
in the current slab. -/
structure It where
  slabs : List Bytes
  offset : Nat
  deriving DecidableEq, Repr

/-- `is_end` (src/Base64.cc 42), and equality with the end iterator (38-40, 67, 73, 83). -/
def It.isEnd (i : It) : Bool := i.slabs.isEmpty

/-- `*i++` (src/Base64.cc 20-36): the byte read and the advanced iterator.  Reading at or
beyond the slab's length is undefined behaviour. -/
def It.next (i : It) : Out (UInt8 × It) :=
  match i.slabs with
  | [] => .ub
  | s :: rest =>
    match s[i.offset]? with
    | none => .ub
    | some b => .ok (b, if i.offset + 1 ≥ s.length then ⟨rest, 0⟩ else ⟨s :: rest, i.offset + 1⟩)

/-- Number of increments to reach the end. -/
def It.remaining (i : It) : Nat :=
  match i.slabs with
  | [] => 0
  | s :: rest => (max 1 s.length - i.offset) + (rest.map fun t => max 1 t.length).sum

theorem sum_pos_of {rest : List Bytes} (h : rest ≠ []) :
    0 < (rest.map fun t => max 1 t.length).sum := by
  cases rest with
  | nil => contradiction
  | cons a as => simp only [List.map_cons, List.sum_cons]; omega

theorem It.next_lt {i j : It} {b : UInt8} (h : i.next = .ok (b, j)) :
    j.remaining < i.remaining := by
  unfold It.next at h
  split at h
  · cases h
  · rename_i s rest hs
    split at h
    · cases h
    · rename_i b' hb
      have hlt : i.offset < s.length := by
        rcases Nat.lt_or_ge i.offset s.length with h' | h'
        · exact h'
        · simp [List.getElem?_eq_none h'] at hb
      simp only [Out.ok.injEq, Prod.mk.injEq] at h
      obtain ⟨_, rfl⟩ := h
      by_cases hg : i.offset + 1 ≥ s.length
      · rw [if_pos hg]
        unfold It.remaining
        simp only [hs]
        cases rest with
        | nil => simp; omega
        | cons a as => simp; omega
      · rw [if_neg hg]
        unfold It.remaining
        simp only [hs]
        omega

/-- The alphabet, `encoding[]` (src/Base64.cc 56). -/
def alphabet : Bytes :=
  "ABCDEFGHIJKLMNOPQRSTUVWXYZabcdefghijklmnopqrstuvwxyz0123456789+/".toList.map
    fun c => UInt8.ofNat c.toNat

/-- `PUSH_VALUE` (src/Base64.cc 61-65) for a `result` in 0..255; the table access is
checked. -/
def pushValue (r : UInt8) : Out UInt8 :=
  if r > 63 then .ok 0x3d
  else match alphabet[r.toNat]? with
    | some c => .ok c
    | none => .ub

/-- The main loop of `Base64Encode` (src/Base64.cc 69-101); returns the characters written.
`sc` is `step_count` (a 32-bit counter; it counts groups, so it cannot wrap for inputs below
2^32 bytes and is kept as a natural number). -/
def encodeLoop (cpl : Nat) (i : It) (sc : Nat) : Out Bytes :=
  if i.isEnd then .ok []                                    -- 71
  else
    match _h1 : i.next with                                  -- 72
    | .throw e => .throw e
    | .ub => .ub
    | .ok (a, i1) => do
      let c1 ← pushValue ((a &&& 0xFC) >>> 2)               -- 73-74
      let r := (a &&& 0x03) <<< 4                           -- 75
      if i1.isEnd then                                      -- 77-82
        let c2 ← pushValue r
        return [c1, c2, 0x3d, 0x3d]
      else
        match _h2 : i1.next with                             -- 83
        | .throw e => .throw e
        | .ub => .ub
        | .ok (b, i2) => do
          let c2 ← pushValue (r ||| ((b &&& 0xF0) >>> 4))   -- 84-85
          let r := (b &&& 0x0F) <<< 2                       -- 86
          if i2.isEnd then                                  -- 88-92
            let c3 ← pushValue r
            return [c1, c2, c3, 0x3d]
          else
            match _h3 : i2.next with                         -- 93
            | .throw e => .throw e
            | .ub => .ub
            | .ok (c, i3) => do
              let c3 ← pushValue (r ||| ((c &&& 0xC0) >>> 6))  -- 94-95
              let c4 ← pushValue (c &&& 0x3F)                  -- 96-97
              if 0 < cpl ∧ sc + 1 = cpl / 4 then               -- 98-102
                let rest ← encodeLoop cpl i3 0
                return c1 :: c2 :: c3 :: c4 :: 0x0a :: rest
              else
                let rest ← encodeLoop cpl i3 (sc + 1)
                return c1 :: c2 :: c3 :: c4 :: rest
termination_by i.remaining
decreasing_by
  all_goals
    have a1 := It.next_lt _h1
    have a2 := It.next_lt _h2
    have a3 := It.next_lt _h3
    omega

/-- `Base64Encode` (src/Base64.cc 55-108): the characters before the terminating NUL (the
returned count is their number). -/
def encode (iov : List Bytes) (cpl : Nat) : Out Bytes := do
  let r ← encodeLoop cpl ⟨iov, 0⟩ 0
  return if 0 < cpl then r ++ [0x0a] else r

/-- `Base64EncodeSize` (src/Base64.cc 110-117), 32-bit arithmetic. -/
def encodeSize (len cpl : UInt32) : UInt32 :=
  let res := (len * 4) / 3 + 4
  if cpl > 0 then res + 2 * (res / cpl + 1) else res + 1

/-- The `decoding[]` table (src/Base64.cc 120); entries are signed, -1 invalid, -2 pad. -/
def decodeTable : List Int :=
  [62,-1,-1,-1,63,52,53,54,55,56,57,58,59,60,61,-1,-1,-1,-2,-1,-1,-1,0,1,2,3,4,5,6,7,8,9,10,
   11,12,13,14,15,16,17,18,19,20,21,22,23,24,25,-1,-1,-1,-1,-1,-1,26,27,28,29,30,31,32,33,34,
   35,36,37,38,39,40,41,42,43,44,45,46,47,48,49,50,51]

/-- One trial of `DECODE_VALUE` (src/Base64.cc 127-133) on the input byte `b`: `val` is the
byte minus 43 as a `signed char`; `some f` is an accepted fragment, `none` means the byte
is skipped.  The bounds test is `val > decoding_size`, as in the code. -/
def decodeChar (b : UInt8) : Out (Option UInt8) :=
  let v := b - 43
  if v ≥ 128 ∨ v.toNat > decodeTable.length then .ok none
  else match decodeTable[v.toNat]? with
    | none => .ub
    | some f => .ok (if f < 0 then none else some (UInt8.ofNat f.toNat))

/-- The four steps of the decoding loop (src/Base64.cc 135-152): which step is next and the
partial `result`. -/
inductive Phase where
  | a
  | b (result : UInt8)
  | c (result : UInt8)
  | d (result : UInt8)
  deriving DecidableEq, Repr

/-- `Base64Decode` (src/Base64.cc 119-155) from a given step: the bytes written. -/
def decodeFrom : Phase → Bytes → Out Bytes
  | _, [] => .ok []
  | ph, x :: xs => do
    match ← decodeChar x with
    | none => decodeFrom ph xs
    | some f =>
      match ph with
      | .a => decodeFrom (.b ((f &&& 0x3f) <<< 2)) xs
      | .b r => do
        let rest ← decodeFrom (.c ((f &&& 0x0f) <<< 4)) xs
        return (r ||| ((f &&& 0x30) >>> 4)) :: rest
      | .c r => do
        let rest ← decodeFrom (.d ((f &&& 0x03) <<< 6)) xs
        return (r ||| ((f &&& 0x3c) >>> 2)) :: rest
      | .d r => do
        let rest ← decodeFrom .a xs
        return (r ||| (f &&& 0x3f)) :: rest

/-- `Base64Decode` (src/Base64.cc 119-155). -/
def decode (text : Bytes) : Out Bytes := decodeFrom .a text

/-- `Base64DecodeSize` (src/Base64.cc 157-159), 32-bit arithmetic. -/
def decodeSize (len : UInt32) : UInt32 := (len * 3) / 4 + 1

end Verif.B64
