import Verif.Event.Spec
/-!
# Random recordings (src/EventBuffer.cc 137-281)

The numbers `rand()` returns are a list; `none` when they are used up before the function returns.  Numbers are at most
`RAND_MAX`, 2^31 - 1.  Simplified: `1 << 31` and `isprint` of a negative `char` (undefined in the standard) give what they give
with glibc; a disallowed set is a number with a bit for each event type (src/EventBuffer.h 59-80).
-/

namespace Verif.Event

/-- What is left of the numbers `rand()` returns. -/
abbrev Rnd := List Nat

/-- `BEGIN_EVENTS` (src/EventBuffer.h 75). -/
def beginEvents : Nat := 1 ||| 4 ||| 16
/-- `END_EVENTS` (src/EventBuffer.h 76). -/
def endEvents : Nat := 2 ||| 8 ||| 32
/-- `SCALAR_EVENTS` (src/EventBuffer.h 77-78). -/
def scalarEvents : Nat := 64 ||| 128 ||| 256 ||| 512 ||| 1024 ||| 2048 ||| 4096
/-- `ALL_EVENTS` (src/EventBuffer.h 79). -/
def allEvents : Nat := 0x0FFF

/-- The loop of `RandomEventType` (src/EventBuffer.cc 167-173); the result is the number of the bit. -/
def pickType (dis : Nat) : Rnd → Option (Nat × Rnd)
  | [] => none
  | r :: rs =>
    let bit := r % 32
    if dis.testBit bit = false ∧ allEvents.testBit bit = true then some (bit, rs) else pickType dis rs

/-- `RandomEventType` (src/EventBuffer.cc 162-174). -/
def randomType (dis : Nat) (level max : Int) (rs : Rnd) : Option (Nat × Rnd) :=
  pickType (if level ≥ max then dis ||| beginEvents else dis) rs

/-- The condition on a character (src/EventBuffer.cc 183) in the C locale. -/
def goodChar (c : UInt8) : Bool :=
  let print := 32 ≤ c.toNat && c.toNat ≤ 126
  let blank := c.toNat = 32 || c.toNat = 9
  let digit := 48 ≤ c.toNat && c.toNat ≤ 57
  !(!print || blank || digit || c == 126)

/-- The characters of a string (src/EventBuffer.cc 181-185). -/
def randomChars (n : Nat) (rs : Rnd) : Option (Bytes × Rnd) :=
  match n, rs with
  | 0, rs => some ([], rs)
  | _ + 1, [] => none
  | n + 1, r :: rs =>
    if goodChar (UInt8.ofNat r) then
      match randomChars n rs with
      | none => none
      | some (s, rs) => some (UInt8.ofNat r :: s, rs)
    else randomChars (n + 1) rs

/-- `GenerateRandomString` (src/EventBuffer.cc 176-188). -/
def randomString : Rnd → Option (Bytes × Rnd)
  | [] => none
  | r :: rs => if r % 100 < 1 then randomString rs else randomChars (r % 100) rs

/-- `GenerateRandomBlob` (src/EventBuffer.cc 190-200). -/
def randomBlob : Rnd → Option (Bytes × Rnd)
  | [] => none
  | r :: rs =>
    if r % 100 < 1 then randomBlob rs
    else if rs.length < r % 100 then none
    else some ((rs.take (r % 100)).map UInt8.ofNat, rs.drop (r % 100))

/-- `RAND_MAX`. -/
def randMax : Nat := 2147483647

/-- The doubles (src/EventBuffer.cc 233-252); `prod` is the product of two numbers divided by `RAND_MAX`. -/
def randomDouble (prod : Nat → Nat → UInt64) (nan : Bool) (r1 ty r2 : Nat) : UInt64 :=
  if ty.testBit 0 = false ∨ nan = false then prod r1 r2
  else if ty.testBit 1 = false then
    if ty.testBit 2 = false then 0xFFF0000000000000 else 0x7FF0000000000000
  else if ty.testBit 2 = false then 0x7FF8000000000000
  else 0x7FF4000000000000

/-- What a generating function does with the buffer; `none`: the numbers are used up. -/
abbrev Gen := Buf → Rnd → Option (Out (Buf × Rnd))

/-- The loop of `ListRandomEvent` (src/EventBuffer.cc 277-279). -/
def listLoop (rec : Gen) : Nat → Gen
  | 0, b, rs => some (.ok (b, rs))
  | n + 1, b, rs =>
    match rec b rs with
    | some (.ok (b, rs)) => listLoop rec n b rs
    | r => r

/-- `ListRandomEvent` (src/EventBuffer.cc 274-281). -/
def listRandom (rec : Gen) : Gen := fun b rs =>
  match rs with
  | [] => none
  | r :: rs =>
    match listLoop rec (r % 10) (record b (.beginList (r % 10 : Nat))) rs with
    | some (.ok (b, rs)) => some (.ok (record b .endList, rs))
    | r => r

/-- The loop of `MapRandomEvent` (src/EventBuffer.cc 266-270). -/
def mapLoop (rec : Gen) : Nat → Gen
  | 0, b, rs => some (.ok (b, rs))
  | n + 1, b, rs =>
    match randomString rs with
    | none => none
    | some (k, rs) =>
      match rec (record b (.str k)) rs with
      | some (.ok (b, rs)) => mapLoop rec n b rs
      | r => r

/-- `MapRandomEvent` (src/EventBuffer.cc 263-272). -/
def mapRandom (rec : Gen) : Gen := fun b rs =>
  match rs with
  | [] => none
  | r :: rs =>
    match mapLoop rec (r % 10) (record b (.beginMap (r % 10 : Nat))) rs with
    | some (.ok (b, rs)) => some (.ok (record b .endMap, rs))
    | r => r

/-- `BasicRandomEvent` (src/EventBuffer.cc 202-261); `fuel` bounds the nesting. -/
def basicRandom (prod : Nat → Nat → UInt64) (dis : Nat) (max : Int) (nan : Bool) : Nat → Gen
  | 0, _, _ => none
  | fuel + 1, b, rs =>
    match randomType (dis ||| endEvents) b.level max rs with
    | none => none
    | some (t, rs) =>
      match t with
      | 2 => mapRandom (basicRandom prod dis max nan fuel) b rs
      | 4 => listRandom (basicRandom prod dis max nan fuel) b rs
      | 6 => some (.ok (record b .null, rs))
      | 7 => match rs with
        | [] => none
        | r :: rs => some (.ok (record b (.bool (r.testBit 0)), rs))
      | 8 => match randomString rs with
        | none => none
        | some (s, rs) => some (.ok (record b (.str s), rs))
      | 9 => match rs with
        | [] => none
        | r :: rs => some (.ok (record b (.int (Int64.ofInt ((r : Int) - (randMax / 2 : Nat)))), rs))
      | 10 => match rs with
        | [] => none
        | r :: rs => some (.ok (record b (.uint (UInt64.ofNat r)), rs))
      | 11 => match rs with
        | r1 :: ty :: r2 :: rs => some (.ok (record b (.flt (randomDouble prod nan r1 ty r2)), rs))
        | _ => none
      | 12 => match randomBlob rs with
        | none => none
        | some (s, rs) => some (.ok (record b (.blob [s]), rs))
      | _ => some (.throw .runtime)

/-- `FillRandom` (src/EventBuffer.cc 137-160). -/
def fillRandom (prod : Nat → Nat → UInt64) (dis : Nat) (max : Int) (nan : Bool) : Gen := fun b rs =>
  let doc := dis.testBit 0 = false
  let b := if doc then record b .beginDoc else b
  let dis := dis ||| 1
  let rec' := basicRandom prod dis max nan ((max - b.level).toNat + 1)
  match randomType (dis ||| scalarEvents ||| endEvents) b.level max rs with
  | none => none
  | some (t, rs) =>
    match (match t with
      | 2 => mapRandom rec' b rs
      | 4 => listRandom rec' b rs
      | _ => some (.throw .runtime)) with
    | some (.ok (b, rs)) => some (.ok (if doc then record b .endDoc else b, rs))
    | r => r

end Verif.Event
