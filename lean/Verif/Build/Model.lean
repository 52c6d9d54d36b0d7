import Verif.Val.Basic
import Verif.Base.Decimal
/-!
# Building a value from parser events

`VariantBaseParserActions`, `VariantMapParserActions`, `VariantListParserActions` and
`ParseVariant` (src/VariantParsing.cc 63-214), driven by the events of a parser
(include/Variant/Parser.h 19-52).  Anchors and tags (YAML only) are not modelled: all JSON,
property-list, bundle-header and MessagePack parsers pass null pointers.
-/

namespace Verif.Build

/-- The virtual functions of `ParserActions` (include/Variant/Parser.h 22-51) with their
value arguments; the announced container length is not used by these handlers. -/
inductive PEv where
  | beginDoc | endDoc
  | beginMap | endMap
  | beginList | endList
  | scalar (v : Val)
  deriving Repr

/-- `Variant::AsString` (src/Variant.cc 275, 601, 718, 846, 905, 966, 1060): the text used
when a value becomes a map key.  `fltText` is `oss << double`. -/
def asString (fltText : UInt64 → Bytes) : Val → Out Bytes
  | .null => .ok []
  | .bool true => .ok [0x74, 0x72, 0x75, 0x65]
  | .bool false => .ok [0x66, 0x61, 0x6c, 0x73, 0x65]
  | .int i => .ok (if i.toInt < 0 then 45 :: natDec i.toInt.natAbs else natDec i.toInt.natAbs)
  | .uint u => .ok (natDec u.toNat)
  | .flt b => .ok (fltText b)
  | .str s => .ok s
  | .list _ => .throw .unableToConvert
  | .map _ => .throw .unableToConvert
  | .blob _ => .throw .unableToConvert

/-- One handler on the action stack: the base class (src/VariantParsing.cc 63-144), the map
handler (146-170; `key = none` is `expect_key == true`) or the list handler (181-199). -/
inductive Frame where
  | root (result : Val) (seen : Bool)
  | map (m : List (Bytes × Val)) (key : Option Bytes)
  | list (xs : List Val)
  deriving Repr

/-- The `result` member of a handler. -/
def Frame.result : Frame → Val
  | .root v _ => v
  | .map m _ => .map m
  | .list xs => .list xs

/-- The action stack (top first), `state->result`, and the `done` flag of the root handler. -/
structure BState where
  frames : List Frame
  result : Val
  done : Bool
  deriving Repr

/-- `ParseVariant` up to the loop (src/VariantParsing.cc 209-211). -/
def BState.init : BState := ⟨[.root .null false], .null, false⟩

/-- `SetValue` of the three handlers (src/VariantParsing.cc 114-121, 160-170, 194-197): the
updated handler and whether it calls `Finish` (root handler outside a document). -/
def setVal (ft : UInt64 → Bytes) (f : Frame) (v : Val) : Out (Frame × Bool) :=
  match f with
  | .root _ seen => .ok (.root v seen, !seen)
  | .map m none => do
    let k ← asString ft v
    return (.map m (some k), false)
  | .map m (some k) => .ok (.map (AMap.set m k v) none, false)
  | .list xs => .ok (.list (xs ++ [v]), false)

/-- `SetValue` called on the top handler, with the `Finish` of a root handler
(src/VariantParsing.cc 123-131: `base` is null for it). -/
def setTop (ft : UInt64 → Bytes) (s : BState) (v : Val) : Out BState :=
  match s.frames with
  | [] => .throw .runtime
  | f :: rest => do
    let (f', fin) ← setVal ft f v
    return if fin then ⟨rest, v, true⟩ else { s with frames := f' :: rest }

/-- `Finish` of the top handler (src/VariantParsing.cc 123-131): hand `result` to the handler
below, or to the caller for the bottom one, and pop. -/
def finish (ft : UInt64 → Bytes) (s : BState) : Out BState :=
  match s.frames with
  | [] => .throw .runtime
  | [f] => .ok ⟨[], f.result, true⟩
  | f :: rest => setTop ft { s with frames := rest } f.result

/-- One event on the top handler (src/VariantParsing.cc 69-112, 154-157, 172-177, 189-192,
201-206; include/Variant/Parser.h 22-51 for the unexpected ends). -/
def event (ft : UInt64 → Bytes) (s : BState) (e : PEv) : Out BState :=
  match s.frames with
  | [] => .throw .runtime                                   -- TopAction, Parser.h 92-96
  | f :: rest =>
    match e with
    | .beginDoc =>
      match f with
      | .root v _ => .ok { s with frames := .root v true :: rest }
      | _ => .ok s          -- sets a flag the container handlers never read
    | .endDoc => finish ft s
    | .beginMap => .ok { s with frames := .map [] none :: s.frames }
    | .beginList => .ok { s with frames := .list [] :: s.frames }
    | .endMap =>
      match f with
      | .map _ _ => finish ft s
      | _ => .throw .runtime
    | .endList =>
      match f with
      | .list _ => finish ft s
      | _ => .throw .runtime
    | .scalar v => setTop ft s v

/-- A sequence of events. -/
def events (ft : UInt64 → Bytes) (s : BState) : List PEv → Out BState
  | [] => .ok s
  | e :: es => do
    let s' ← event ft s e
    events ft s' es

end Verif.Build
