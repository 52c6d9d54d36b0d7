import Verif.Json.Table
import Verif.Base.Decimal
/-!
# Model of the tokenizer, `lib/json/JSON_parser.c`

The mode stack and the text buffer are lists (their growth in `push`, `grow_parse_buffer` and
`parse_buffer_push_back_char` is modelled in `Verif/Json/Grow.lean`).  The configuration is
the one set by `JSONParserImpl::AllocParser` (src/JSONParser.cc 124-132): comments allowed,
unlimited depth, floats converted by the parser, and the "C" locale (decimal point `.`).
A failed `assert`, a read outside a table or stack, and the use of a number variable that
`sscanf` did not set are undefined behaviour.
-/

namespace Verif.JsonTok

/-- `enum modes` (lib/json/JSON_parser.c 295-300). -/
inductive Mode where
  | array | done | key | object
  deriving DecidableEq, Repr

/-- The values `jc->type` takes (lib/json/JSON_parser.h `JSON_type`, scalar types and none). -/
inductive JT where
  | none | int | uint | float | null | tru | fals | string
  deriving DecidableEq, Repr

/-- Callback invocations (lib/json/JSON_parser.c 479-522 and 823-957): type and argument. -/
inductive JEv where
  | arrBegin | arrEnd | objBegin | objEnd
  | key (s : Bytes)
  | int (i : Int)          -- value read by sscanf "%lld"
  | uint (n : Nat)         -- value read by sscanf "%llu"
  | float (text : Bytes)   -- text given to strtod
  | null | tru | fals
  | str (s : Bytes)
  deriving DecidableEq, Repr

/-- `struct JSON_parser_struct` (lib/json/JSON_parser.c 92-108), the fields that change. -/
structure Tok where
  state : Int
  bcs : Int                -- before_comment_state
  type : JT
  escaped : Bool
  comment : Bool
  hs : Nat                 -- utf16_high_surrogate
  stack : List Mode        -- top first
  buf : Bytes              -- parse_buffer[0 .. parse_buffer_count)
  deriving DecidableEq, Repr

/-- `new_JSON_parser` (lib/json/JSON_parser.c 374-446). -/
def Tok.init : Tok := ⟨GO, 0, .none, false, false, 0, [.done], []⟩

/-- Result of one `JSON_parser_char`: it returned true, it returned false (the parser keeps
the changes made so far), or undefined behaviour; with the callbacks made. -/
inductive StepR where
  | cont (t : Tok) (evs : List JEv)
  | rej (t : Tok) (evs : List JEv)
  | ub
  deriving DecidableEq, Repr

/-- Read a signed decimal with `sscanf`/`strtoll`: blanks, optional sign, digits; `none` if
there is no digit; values outside `lo..hi` are clamped (glibc). -/
def scanDec (lo hi : Int) (s : Bytes) : Option Int :=
  let t := skipSpace s
  let (neg, u) := match t with
    | 45 :: u => (true, u)
    | 43 :: u => (false, u)
    | u => (false, u)
  let (ds, _) := spanDigits u
  if ds = [] then none
  else
    let v : Int := decVal 0 ds
    let w := if neg then -v else v
    some (if w < lo then lo else if hi < w then hi else w)

/-- `sscanf(s, "%lld", &x)` (lib/json/JSON_parser.c 500). -/
def scanI64 (s : Bytes) : Option Int := scanDec (-(2 ^ 63)) (2 ^ 63 - 1) s

/-- `sscanf(s, "%llu", &x)` (lib/json/JSON_parser.c 504), for texts without a minus sign
(the only ones that get the unsigned type). -/
def scanU64 (s : Bytes) : Option Nat := (scanDec 0 (2 ^ 64 - 1) s).map Int.toNat

/-- `parse_parse_buffer` (lib/json/JSON_parser.c 479-522): the callback made, if any, and the
parser with a cleared buffer.  `none` is undefined behaviour (number not set by `sscanf`). -/
def parseBuffer (t : Tok) : Option (Tok × List JEv) :=
  let t' := { t with buf := [] }
  match t.type with
  | .none => some (t', [])
  | .float => some (t', [.float t.buf])
  | .int => (scanI64 t.buf).map fun i => (t', [.int i])
  | .uint => (scanU64 t.buf).map fun n => (t', [.uint n])
  | .string => some (t', [.str t.buf])
  | .null => some (t', [.null])
  | .tru => some (t', [.tru])
  | .fals => some (t', [.fals])

/-- `parse_buffer_pop_back_char` (lib/json/JSON_parser.c 353-358); `none`: assertion fails. -/
def popBack (t : Tok) : Option Tok :=
  if t.buf = [] then none else some { t with buf := t.buf.dropLast }

/-- `parse_buffer_push_back_char` (lib/json/JSON_parser.c 461-466). -/
def pushBack (t : Tok) (c : UInt8) : Tok := { t with buf := t.buf ++ [c] }

/-- Value of one hexadecimal digit as computed at lib/json/JSON_parser.c 541-549. -/
def hexVal (c : UInt8) : Nat :=
  if c ≥ 97 then c.toNat - 87 else if c ≥ 65 then c.toNat - 55 else c.toNat % 16 + c.toNat / 64 * 64

/-- `utf8_lead_bits` and the encoding loop (lib/json/JSON_parser.c 587-591): `uc` in UTF-8
with the given number of trailing bytes. -/
def utf8 (uc : Nat) (trail : Nat) : Bytes :=
  match trail with
  | 0 => [UInt8.ofNat uc]
  | 1 => [UInt8.ofNat (uc / 64 ||| 0xC0), UInt8.ofNat (uc % 64 ||| 0x80)]
  | 2 => [UInt8.ofNat (uc / 4096 ||| 0xE0), UInt8.ofNat (uc / 64 % 64 ||| 0x80),
          UInt8.ofNat (uc % 64 ||| 0x80)]
  | _ => [UInt8.ofNat (uc / 262144 ||| 0xF0), UInt8.ofNat (uc / 4096 % 64 ||| 0x80),
          UInt8.ofNat (uc / 64 % 64 ||| 0x80), UInt8.ofNat (uc % 64 ||| 0x80)]

/-- Result of a helper that may return false or fail an assertion. -/
inductive HelpR where
  | good (t : Tok)
  | bad (t : Tok)
  | ub

/-- `decode_unicode_char` (lib/json/JSON_parser.c 529-596). -/
def decodeUnicode (t : Tok) : HelpR :=
  if t.buf.length < 6 then .ub                                        -- 536
  else
    let ds := (t.buf.drop (t.buf.length - 4)).map hexVal              -- 538-549
    if ds.any (fun x => 16 ≤ x) then .ub                              -- 551
    else
      let uc := ds.foldl (fun a x => a * 16 + x) 0                    -- 553
      let t := { t with buf := t.buf.take (t.buf.length - 6) }        -- 557-558
      if t.hs ≠ 0 then                                                -- 561-569
        if 0xDC00 ≤ uc ∧ uc < 0xE000 then
          let uc := (t.hs % 1024) * 1024 + uc % 1024 + 0x10000
          .good { t with hs := 0, buf := t.buf ++ utf8 uc 3 }
        else .bad t
      else if uc < 0x80 then .good { t with buf := t.buf ++ utf8 uc 0 }
      else if uc < 0x800 then .good { t with buf := t.buf ++ utf8 uc 1 }
      else if 0xD800 ≤ uc ∧ uc < 0xDC00 then .good { t with hs := uc }  -- 575-578
      else if 0xDC00 ≤ uc ∧ uc < 0xE000 then .bad t                     -- 579-581
      else .good { t with buf := t.buf ++ utf8 uc 2 }

/-- `add_escaped_char_to_parse_buffer` (lib/json/JSON_parser.c 598-637). -/
def addEscaped (t : Tok) (c : UInt8) : HelpR :=
  match popBack { t with escaped := false } with
  | none => .ub
  | some t =>
    if c = 0x62 then .good (pushBack t 8)          -- b
    else if c = 0x66 then .good (pushBack t 12)    -- f
    else if c = 0x6e then .good (pushBack t 10)    -- n
    else if c = 0x72 then .good (pushBack t 13)    -- r
    else if c = 0x74 then .good (pushBack t 9)     -- t
    else if c = 0x22 then .good (pushBack t 0x22)  -- "
    else if c = 0x5c then .good (pushBack t 0x5c)  -- \
    else if c = 0x2f then .good (pushBack t 0x2f)  -- /
    else if c = 0x75 then .good (pushBack (pushBack t 0x5c) 0x75)  -- u
    else .bad t

/-- `add_char_to_parse_buffer` (lib/json/JSON_parser.c 639-649). -/
def addChar (t : Tok) (c : UInt8) (cls : Int) : HelpR :=
  if t.escaped then addEscaped t c
  else if !t.comment then
    if t.type ≠ .none ∨ ¬ (cls = C_SPACE ∨ cls = C_WHITE) then .good (pushBack t c) else .good t
  else .good t

/-- Lift an optional result (`none` = undefined behaviour). -/
def orUb (o : Option α) (f : α → StepR) : StepR :=
  match o with
  | none => .ub
  | some a => f a

/-- `if (p) assert` : undefined behaviour unless the assertion holds. -/
def assertThen (p : Prop) [Decidable p] (r : StepR) : StepR := if p then r else .ub

/-- The assertion `assert_type_isnt_string_null_or_bool` (lib/json/JSON_parser.c 652-656). -/
def JT.isNum (j : JT) : Bool := j ≠ .fals ∧ j ≠ .tru ∧ j ≠ .null ∧ j ≠ .string

/-- `UC`, Unicode character (lib/json/JSON_parser.c 702-712). -/
def actUnicode (t : Tok) : StepR :=
  match decodeUnicode t with
  | .ub => .ub
  | .bad t => .rej t []
  | .good t => .cont { t with state := if t.hs ≠ 0 then D1 else ST } []

/-- `EX`, escaped character (lib/json/JSON_parser.c 714-717). -/
def actEscape (t : Tok) : StepR := .cont { t with escaped := true, state := ES } []

/-- `MX`, `ZX`, `IX`, integers (lib/json/JSON_parser.c 719-732). -/
def actMinus (t : Tok) : StepR := .cont { t with type := .int, state := MI } []
def actZero (t : Tok) : StepR := .cont { t with type := .uint, state := ZE } []
def actDigit (t : Tok) : StepR := .cont { t with type := .uint, state := IT } []

/-- `DE`, float detected by exponent (lib/json/JSON_parser.c 735-739). -/
def actExp (t : Tok) : StepR :=
  assertThen (t.type.isNum) (.cont { t with type := .float, state := E1 } [])

/-- `DF`, float detected by fraction (lib/json/JSON_parser.c 742-754); in the "C" locale the
point is replaced by itself. -/
def actFrac (t : Tok) : StepR :=
  assertThen (t.type.isNum ∧ t.buf.getLast? = some 0x2e)
    (.cont { t with type := .float, state := FX } [])

/-- `SB`, string begin (lib/json/JSON_parser.c 756-761). -/
def actStrBegin (t : Tok) : StepR :=
  assertThen (t.type = .none) (.cont { t with buf := [], type := .string, state := ST } [])

/-- `NU`, `FA`, `TR`, literals (lib/json/JSON_parser.c 764-780). -/
def actNull (t : Tok) : StepR :=
  assertThen (t.type = .none) (.cont { t with type := .null, state := N1 } [])
def actFalse (t : Tok) : StepR :=
  assertThen (t.type = .none) (.cont { t with type := .fals, state := F1 } [])
def actTrue (t : Tok) : StepR :=
  assertThen (t.type = .none) (.cont { t with type := .tru, state := T1 } [])

/-- `CE`, closing comment (lib/json/JSON_parser.c 783-788). -/
def actCommentEnd (t : Tok) : StepR :=
  assertThen (t.buf = [] ∧ t.type = .none) (.cont { t with comment := false, state := t.bcs } [])

/-- The state to return to after a comment (lib/json/JSON_parser.c 801-816). -/
def afterComment (m : Mode) (st : Int) : Int :=
  if m = .array ∨ m = .object then (if st = VA ∨ st = AR then st else OK) else st

/-- `CB`, opening comment (lib/json/JSON_parser.c 791-820). -/
def actCommentBegin (t : Tok) : StepR :=
  orUb (popBack t) fun t =>
  orUb (parseBuffer t) fun (t, evs) =>
  assertThen (t.type ≠ .string) <|
  match t.stack with
  | [] => .ub
  | m :: _ =>
    .cont { t with bcs := afterComment m t.state, type := .none, state := C1, comment := true } evs

/-- `-9`, empty object end (lib/json/JSON_parser.c 823-832).  `pop(jc, m)` fails when the top
mode is not `m`. -/
def actEmptyObjEnd (t : Tok) : StepR :=
  let t := { t with buf := [] }
  match t.stack with
  | .key :: s => .cont { t with stack := s, state := OK } [.objEnd]
  | _ => .rej t [.objEnd]

/-- `-8`, object end (lib/json/JSON_parser.c 834-847). -/
def actObjEnd (t : Tok) : StepR :=
  orUb (popBack t) fun t =>
  orUb (parseBuffer t) fun (t, evs) =>
  match t.stack with
  | .object :: s => .cont { t with stack := s, type := .none, state := OK } (evs ++ [.objEnd])
  | _ => .rej t (evs ++ [.objEnd])

/-- `-7`, array end (lib/json/JSON_parser.c 849-863). -/
def actArrEnd (t : Tok) : StepR :=
  orUb (popBack t) fun t =>
  orUb (parseBuffer t) fun (t, evs) =>
  match t.stack with
  | .array :: s => .cont { t with stack := s, type := .none, state := OK } (evs ++ [.arrEnd])
  | _ => .rej t (evs ++ [.arrEnd])

/-- `-6`, object begin (lib/json/JSON_parser.c 865-875). -/
def actObjBegin (t : Tok) : StepR :=
  orUb (popBack t) fun t =>
  assertThen (t.type = .none) (.cont { t with stack := .key :: t.stack, state := OB } [.objBegin])

/-- `-5`, array begin (lib/json/JSON_parser.c 877-887). -/
def actArrBegin (t : Tok) : StepR :=
  orUb (popBack t) fun t =>
  assertThen (t.type = .none) (.cont { t with stack := .array :: t.stack, state := AR } [.arrBegin])

/-- `-4`, string end (lib/json/JSON_parser.c 889-919). -/
def actStrEnd (t : Tok) : StepR :=
  orUb (popBack t) fun t =>
  match t.stack with
  | [] => .ub
  | .key :: _ =>
    assertThen (t.type = .string)
      (.cont { t with type := .none, state := CO, buf := [] } [.key t.buf])
  | .done :: _ => .rej t []
  | _ :: _ =>
    assertThen (t.type = .string) <|
    orUb (parseBuffer t) fun (t, evs) =>
    .cont { t with type := .none, state := OK } evs

/-- `-3`, comma (lib/json/JSON_parser.c 921-946). -/
def actComma (t : Tok) : StepR :=
  orUb (popBack t) fun t =>
  orUb (parseBuffer t) fun (t, evs) =>
  match t.stack with
  | [] => .ub
  | .object :: s =>
    assertThen (t.type ≠ .string)
      (.cont { t with stack := .key :: s, type := .none, state := KE } evs)
  | .array :: _ =>
    assertThen (t.type ≠ .string) (.cont { t with type := .none, state := VA } evs)
  | _ :: _ => .rej t evs

/-- `-2`, colon (lib/json/JSON_parser.c 948-958). -/
def actColon (t : Tok) : StepR :=
  orUb (popBack t) fun t =>
  match t.stack with
  | .key :: s =>
    assertThen (t.type = .none) (.cont { t with stack := .object :: s, state := VA } [])
  | _ => .rej t []

/-- The `switch (next_state)` over actions (lib/json/JSON_parser.c 700-964).  The access
`jc->stack[jc->top]` with an empty stack is undefined behaviour. -/
def action (t : Tok) (a : Int) : StepR :=
  if a = UC then actUnicode t
  else if a = EX then actEscape t
  else if a = MX then actMinus t
  else if a = ZX then actZero t
  else if a = IX then actDigit t
  else if a = DE then actExp t
  else if a = DF then actFrac t
  else if a = SB then actStrBegin t
  else if a = NU then actNull t
  else if a = FA then actFalse t
  else if a = TR then actTrue t
  else if a = CE then actCommentEnd t
  else if a = CB then actCommentBegin t
  else if a = -9 then actEmptyObjEnd t
  else if a = -8 then actObjEnd t
  else if a = -7 then actArrEnd t
  else if a = -6 then actObjBegin t
  else if a = -5 then actArrBegin t
  else if a = -4 then actStrEnd t
  else if a = -3 then actComma t
  else if a = -2 then actColon t
  else .rej t []                                                         -- 962-963

/-- Character class of a byte (lib/json/JSON_parser.c 673-683): `ub` outside the table,
`rej` for the bytes without a class. -/
def classOf (c : UInt8) : Option Int :=
  if c.toNat ≥ 128 then some C_ETC else asciiClass[c.toNat]?

/-- Checked access to `state_transition_table[state][class]`. -/
def lookup (s cls : Int) : Option Int :=
  if s < 0 ∨ cls < 0 then none
  else match transitionTable[s.toNat]? with
    | none => none
    | some row => row[cls.toNat]?

/-- `JSON_parser_char` (lib/json/JSON_parser.c 659-967). -/
def charStep (t : Tok) (c : UInt8) : StepR :=
  match classOf c with
  | none => .ub
  | some cls =>
    if cls ≤ -1 then .rej t []
    else match addChar t c cls with
      | .ub => .ub
      | .bad t => .rej t []
      | .good t =>
        match lookup t.state cls with
        | none => .ub
        | some n => if 0 ≤ n then .cont { t with state := n } [] else action t n

/-- `JSON_parser_done` (lib/json/JSON_parser.c 970-976): its result. -/
def isDone (t : Tok) : Bool :=
  t.state = OK && match t.stack with
    | .done :: _ => true
    | _ => false

/-- Feed a whole text, stopping at the first rejection (the documented use of
`JSON_parser_char`). -/
def runTok (t : Tok) (evs : List JEv) : Bytes → StepR
  | [] => .cont t evs
  | c :: cs =>
    match charStep t c with
    | .ub => .ub
    | .rej t' e => .rej t' (evs ++ e)
    | .cont t' e => runTok t' (evs ++ e) cs

end Verif.JsonTok
