import Verif.Base.Outcome
import Verif.Base.Decimal
/-!
# URIs in the schema loader (src/SchemaLoader.cc 89-118, 185-358)
-/

namespace Verif.Uri
open Verif

/-! ## Percent decoding -/

/-- Value of a hexadecimal digit for `strtol`. -/
def hexDigit (c : UInt8) : Option Nat :=
  if 48 ≤ c ∧ c ≤ 57 then some (c.toNat - 48)
  else if 65 ≤ c ∧ c ≤ 70 then some (c.toNat - 55)
  else if 97 ≤ c ∧ c ≤ 102 then some (c.toNat - 87)
  else none

/-- The digits at the front: value, how many, and the rest. -/
def hexRun (acc n : Nat) : Bytes → Nat × Nat × Bytes
  | [] => (acc, n, [])
  | c :: r => match hexDigit c with
    | some d => hexRun (acc * 16 + d) (n + 1) r
    | none => (acc, n, c :: r)

/-- The optional sign `strtol` accepts: whether it is a minus, and the rest. -/
def sign : Bytes → Bool × Bytes
  | [] => (false, [])
  | c :: r => if c = 45 then (true, r) else if c = 43 then (false, r) else (false, c :: r)

/-- `strtol(s, &endp, 16)` of the C library on a text of at most two characters (so that the value
is never out of range and "0x" is never followed by a digit): the value and what `endp` is left at.
With no digits `endp` is the start. -/
def strtol16 (s : Bytes) : Int × Bytes :=
  let sg := sign (s.dropWhile isSpace)
  let h := hexRun 0 0 sg.2
  if h.2.1 = 0 then (0, s) else (if sg.1 then -(h.1 : Int) else h.1, h.2.2)

/-- One `%` with the two characters after it (src/SchemaLoader.cc 100-107). -/
def escapeSeq (a b : UInt8) : Bytes :=
  let r := strtol16 ([a, b].takeWhile (· ≠ 0))
  if r.2 ≠ [] then [37, a, b] else [UInt8.ofInt r.1]

/-- `UnescapeURI` (src/SchemaLoader.cc 89-118) from a position of the string on.  Reading at the
end of the string or behind it is undefined here (97 appends up to the first NUL). -/
def unescapeURI : Bytes → Out Bytes
  | [] => .ok []
  | c :: r =>
    if c = 37 then
      if r.length = 0 ∨ r.length = 1 then .ok ((c :: r).takeWhile (· ≠ 0))
      else match r[0]?, r[1]? with
        | some a, some b => do
          let t ← unescapeURI (r.drop 2)
          .ok (escapeSeq a b ++ t)
        | _, _ => .ub
    else do
      let t ← unescapeURI r
      .ok (c :: t)
termination_by s => s.length
decreasing_by all_goals simp <;> omega

/-! ## Dot segments -/

/-- The substrings between the slashes of the loop (src/SchemaLoader.cc 295-299): what follows each
slash. -/
def segs : Bytes → List Bytes
  | [] => [[]]
  | c :: r => if c = 47 then [] :: segs r
    else match segs r with
      | [] => [[c]]
      | s :: t => (c :: s) :: t

/-- One turn of the loop (src/SchemaLoader.cc 300-310); `unsigned lastdot`. -/
def dotStep (st : List Bytes × Nat) (sub : Bytes) : List Bytes × Nat :=
  if sub = [46] then (st.1, st.1.length % 2 ^ 32)
  else if sub = [46, 46] then
    let out := if st.1 ≠ [] then st.1.dropLast else st.1 ++ [sub]
    (out, out.length % 2 ^ 32)
  else (st.1 ++ [sub], st.2)

/-- Writing the segments (src/SchemaLoader.cc 312-320). -/
def joinSegs (firstslash : Bool) : List Bytes → Bytes
  | [] => []
  | s :: r => (if firstslash then [47] else []) ++ s ++ joinSegs true r

/-- `RemoveDotSegments` (src/SchemaLoader.cc 263-325). -/
def removeDots (input : Bytes) : Bytes :=
  match segs input with
  | [] => input
  | [_] => if input = [46] then [] else input                                     -- 278-282
  | first :: rest =>
    let firstslash : Bool := first = []                                            -- 274-276
    let init : List Bytes × Nat :=
      if firstslash then ([], 0)
      else if first ≠ [46] then ([first], if first = [46, 46] then 1 else 0)        -- 288-292
      else ([], 0)
    let (out, lastdot) := rest.foldl dotStep init
    let text := joinSegs firstslash out
    let text := if out = [] ∧ firstslash = true then text ++ [47] else text                  -- 321
    if lastdot > 0 ∧ lastdot = out.length then text ++ [47] else text                        -- 322

/-! ## Taking URIs apart -/

/-- `URIInfo` (include/Variant/SchemaLoader.h). -/
structure Info where
  href : Bytes
  protocol : Bytes
  authority : Bytes
  pathname : Bytes
  search : Bytes
  hash : Bytes
  deriving DecidableEq, Repr

/-- `([^:\/?#]+:)?` (the backslash is one of the excluded characters): the longest match and the
rest. -/
def takeProtocol (s : Bytes) : Bytes × Bytes :=
  let p := s.takeWhile fun c => c ≠ 58 ∧ c ≠ 92 ∧ c ≠ 47 ∧ c ≠ 63 ∧ c ≠ 35
  match s.dropWhile fun c => c ≠ 58 ∧ c ≠ 92 ∧ c ≠ 47 ∧ c ≠ 63 ∧ c ≠ 35 with
  | 58 :: r => if p = [] then ([], s) else (p ++ [58], r)
  | _ => ([], s)

/-- `([^:@]*(:[^:@]*)?@)?`: the longest match and the rest. -/
def takeUser (s : Bytes) : Bytes × Bytes :=
  let u := s.takeWhile fun c => c ≠ 58 ∧ c ≠ 64
  match s.dropWhile fun c => c ≠ 58 ∧ c ≠ 64 with
  | 64 :: r => (u ++ [64], r)
  | 58 :: r =>
    let p := r.takeWhile fun c => c ≠ 58 ∧ c ≠ 64
    match r.dropWhile fun c => c ≠ 58 ∧ c ≠ 64 with
    | 64 :: r' => (u ++ [58] ++ p ++ [64], r')
    | _ => ([], s)
  | _ => ([], s)

/-- `([^:/?#]*)(:[0-9]*)?`. -/
def takeHost (s : Bytes) : Bytes × Bytes :=
  let h := s.takeWhile fun c => c ≠ 58 ∧ c ≠ 47 ∧ c ≠ 63 ∧ c ≠ 35
  match s.dropWhile fun c => c ≠ 58 ∧ c ≠ 47 ∧ c ≠ 63 ∧ c ≠ 35 with
  | 58 :: r => (h ++ [58] ++ r.takeWhile isDigit, r.dropWhile isDigit)
  | r => (h, r)

/-- `(//user@host:port)?`. -/
def takeAuthority (s : Bytes) : Bytes × Bytes :=
  match s with
  | 47 :: 47 :: r =>
    let (u, r) := takeUser r
    let (h, r) := takeHost r
    ([47, 47] ++ u ++ h, r)
  | _ => ([], s)

/-- `(\?[^#]*)?`. -/
def takeSearch (s : Bytes) : Bytes × Bytes :=
  match s with
  | 63 :: r => (63 :: r.takeWhile (· ≠ 35), r.dropWhile (· ≠ 35))
  | _ => ([], s)

/-- `(#[^[:space:]]*)?`. -/
def takeHash (s : Bytes) : Bytes × Bytes :=
  match s with
  | 35 :: r => (35 :: r.takeWhile (fun c => !isSpace c), r.dropWhile (fun c => !isSpace c))
  | _ => ([], s)

/-- `SchemaLoader::ParseURI` (src/SchemaLoader.cc 185-261): the match of its regular expression.
POSIX gives each part, from left to right, the longest text with which the rest still matches; the
rest matches unless blanks inside the fragment (or nothing else) prevent it, whatever the parts
before took.  `regexec` sees the text up to the first NUL.  C locale. -/
def parseURI (uri : Bytes) : Option Info :=
  let s := uri.takeWhile (· ≠ 0)
  let (protocol, r) := takeProtocol (s.dropWhile isSpace)
  let (authority, r) := takeAuthority r
  let pathname := r.takeWhile fun c => c ≠ 63 ∧ c ≠ 35
  let (search, r) := takeSearch (r.dropWhile fun c => c ≠ 63 ∧ c ≠ 35)
  let (hash, r) := takeHash r
  if r.dropWhile isSpace = [] then some ⟨s, protocol, authority, pathname, search, hash⟩ else none

/-! ## Resolving -/

/-- `pathname.substr(0, pathname.rfind("/") + 1)` (src/SchemaLoader.cc 346): up to and including the
last slash, nothing if there is none. -/
def upToSlash (p : Bytes) : Bytes := (p.reverse.dropWhile (· ≠ 47)).reverse

/-- The path of the result (src/SchemaLoader.cc 338-350). -/
def resolvePath (b h : Info) : Bytes :=
  if h.protocol ≠ [] ∨ h.authority ≠ [] ∨ h.pathname.head? = some 47 then removeDots h.pathname
  else if h.pathname = [] then removeDots b.pathname
  else removeDots ((if b.authority ≠ [] ∧ b.pathname = [] then [47] else []) ++ upToSlash b.pathname ++ h.pathname)

/-- `SchemaLoader::ResolveURI` (src/SchemaLoader.cc 327-358). -/
def resolveURI (base href : Bytes) : Bytes :=
  match parseURI base, parseURI href with
  | some b, some h =>
    (if h.protocol ≠ [] then h.protocol else b.protocol) ++
    (if h.protocol ≠ [] ∨ h.authority ≠ [] then h.authority else b.authority) ++
    resolvePath b h ++
    (if h.protocol ≠ [] ∨ h.authority ≠ [] ∨ h.pathname ≠ [] ∨ h.search ≠ [] then h.search else b.search) ++
    h.hash
  | _, _ => []

end Verif.Uri
