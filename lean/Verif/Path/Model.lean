import Verif.Base.Decimal
/-!
# Model of `include/Variant/Path.h` and `src/Path.cc`
-/

namespace Verif

/-- `PathElement` (include/Variant/Path.h 21-60): either a key or a 32-bit index. -/
inductive PathElem where
  | key (s : Bytes)
  | index (i : UInt32)
  deriving DecidableEq, Repr

/-- `Path` (include/Variant/Path.h): a vector of elements. -/
abbrev VPath := List PathElem

namespace PathM

/-- Local variables of `ParsePath` (src/Path.cc 13-16) and the path built so far. -/
structure PSt where
  frag : Bytes
  escape : Bool
  index : Bool
  key : Bool
  out : VPath
  deriving DecidableEq, Repr

/-- Initial values of the locals (src/Path.cc 13-16). -/
def PSt.init : PSt := ⟨[], false, false, false, []⟩

/-- One iteration of the `while` loop of `ParsePath` (src/Path.cc 17-71). -/
def step (s : PSt) (c : UInt8) : Out PSt :=
  if s.escape then                                   -- 18-20
    .ok { s with frag := s.frag ++ [c], escape := false }
  else if s.index then                               -- 21-33
    if c = 0x5d then                                 -- ']'
      match extractU64 s.frag with
      | none => .throw .runtime                      -- 26
      | some i =>                                    -- 28: `push_back(i)` narrows to unsigned
        .ok { s with out := s.out ++ [.index (UInt32.ofNat i)], frag := [], index := false }
    else .ok { s with frag := s.frag ++ [c] }
  else if s.key then                                 -- 34-52
    if c = 0x2f then                                 -- '/'
      .ok { s with out := s.out ++ [.key s.frag], frag := [] }
    else if c = 0x5b then                            -- '['
      .ok { s with out := s.out ++ [.key s.frag], frag := [], key := false, index := true }
    else if c = 0x5c then                            -- '\\'
      .ok { s with escape := true }
    else .ok { s with frag := s.frag ++ [c] }
  else                                               -- 53-69
    if c = 0x2f then .ok { s with frag := [], key := true }
    else if c = 0x5b then .ok { s with frag := [], index := true }
    else .ok { s with frag := [c], key := true }

/-- The whole `while` loop (src/Path.cc 17-71). -/
def run (s : PSt) : Bytes → Out PSt
  | [] => .ok s
  | c :: cs => do run (← step s c) cs

/-- `ParsePath` (src/Path.cc 10-79), starting from an empty path. -/
def parsePath (text : Bytes) : Out VPath := do
  let s ← run .init text
  .ok (if s.frag = [] then s.out else s.out ++ [.key s.frag])      -- 72

/-- Escaping of one key character (src/Path.cc 89-105). -/
def escChar (c : UInt8) : Bytes :=
  if c = 0x2f ∨ c = 0x5b ∨ c = 0x5d ∨ c = 0x5c then [0x5c, c] else [c]

/-- Text of one element (src/Path.cc 85-111).  An element is a key or an index, so the
`throw` of line 110 is unreachable and not modelled. -/
def elemString : PathElem → Bytes
  | .key k => 0x2f :: k.flatMap escChar
  | .index i => 0x5b :: natDec i.toNat ++ [0x5d]

/-- `PathString` (src/Path.cc 81-114). -/
def pathString (p : VPath) : Bytes :=
  match p with
  | [] => [0x2f]
  | p => p.flatMap elemString

end PathM
end Verif
