import Verif.Args.Parse
/-!
# The words of a command line (src/ArgParse.cc 963-979, 986-1001)

`ArgParseImpl::Parse` builds the two tables of `getopt_long` and calls it until it returns -1.  `getopt_long` itself is not in this
repository; it is modelled here after the GNU C library (posix/getopt.c of version 2.26 and later).  What it prints is not modelled.

Words are C strings: they have no NUL.
-/

namespace Verif.Args
open Verif JsonDrv Schema

/-! ## The tables -/

/-- `struct option` as it is filled in (src/ArgParse.cc 974-977); the name is read up to its first NUL. -/
structure LongOpt where
  name : Bytes
  takes : Bool
  val : Int32
  deriving Repr

/-- `shortOpts` and `longOpts`. -/
structure Tables where
  shorts : Bytes
  longs : List LongOpt
  deriving Repr

/-- What one entry adds to `shortOpts` (src/ArgParse.cc 968-971). -/
def shortPart (o : Opt) : Bytes :=
  if o.short > 0 then (toChar o.short).toUInt8 :: (if hasArg o.cfg.action then [58] else []) else []

/-- What one entry adds to `longOpts` (src/ArgParse.cc 972-977). -/
def longPart (e : Int32 × Opt) : List LongOpt :=
  if e.2.long ≠ [] then [⟨e.2.long.takeWhile (· ≠ 0), hasArg e.2.cfg.action, e.1⟩] else []

/-- The loop over all entries (src/ArgParse.cc 963-979); `shortOpts.c_str()` is read up to the first NUL (994). -/
def tables (m : List (Int32 × Opt)) : Tables :=
  ⟨(m.flatMap fun e => shortPart e.2).takeWhile (· ≠ 0), m.flatMap longPart⟩

/-! ## `getopt_long` -/

/-- What is done about words that are no options. -/
inductive Order where
  | permute | require | inOrder
  deriving DecidableEq, Repr

/-- How the first call of `getopt_long` in a process reads the beginning of `shortOpts`; `posix`: POSIXLY_CORRECT is in the environment. -/
def ordering (posix : Bool) : Bytes → Order × Bytes
  | 45 :: s => (.inOrder, s)
  | 43 :: s => (.require, s)
  | s => (if posix then .require else .permute, s)

/-- What `shortOpts` says about a character.  `posixW`: "W;", which asks for something else that is not modelled. -/
inductive Kind where
  | unknown | flag | required | optional | posixW
  deriving DecidableEq, Repr

/-- What follows the character in `shortOpts`. -/
def kindAfter (c : UInt8) : Bytes → Kind
  | 58 :: 58 :: _ => .optional
  | 58 :: _ => .required
  | 59 :: _ => if c = 87 then .posixW else .flag
  | _ => .flag

/-- `strchr(optstring, c)`. -/
def kindIn : Bytes → UInt8 → Kind
  | [], _ => .unknown
  | x :: r, c => if x = c then kindAfter c r else kindIn r c

/-- ':' and ';' are no options. -/
def kind (s : Bytes) (c : UInt8) : Kind := if c = 58 ∨ c = 59 then .unknown else kindIn s c

/-- The `char` that is returned as an `int`: `char` is signed (x86).  255 would be -1, which ends the loop; this is not modelled. -/
def charVal (c : UInt8) : Int32 := c.toInt8.toInt32

/-- '?' (src/ArgParse.cc 996) -/
def wrong : Event := ⟨63, none⟩

/-- The short options in one word; and the option that takes the next word. -/
def cluster (s : Bytes) (erange : Bool) : Bytes → List Event × Option Int32
  | [] => ([], none)
  | c :: cs => match kind s c with
    | .unknown => (wrong :: (cluster s erange cs).1, (cluster s erange cs).2)
    | .flag => (⟨charVal c, none⟩ :: (cluster s erange cs).1, (cluster s erange cs).2)
    | .required => match cs with
      | [] => ([], some (charVal c))
      | v => ([⟨charVal c, some ⟨v, erange⟩⟩], none)
    | .optional => match cs with
      | [] => ([⟨charVal c, none⟩], none)
      | v => ([⟨charVal c, some ⟨v, erange⟩⟩], none)
    | .posixW => ([wrong], none)

/-- The long option with this name, or the only one whose name begins like this. -/
def lookupLong (T : List LongOpt) (n : Bytes) : Option LongOpt :=
  match T.find? fun o => o.name == n with
  | some o => some o
  | none => match T.filter fun o => n.isPrefixOf o.name with
    | [] => none
    | o :: os => if os.all fun o' => o'.takes == o.takes && o'.val == o.val then some o else none

/-- A word that begins with "--"; `r` is what follows. -/
def longWord (T : List LongOpt) (erange : Bool) (r : Bytes) : List Event × Option Int32 :=
  let n := r.takeWhile (· ≠ 61)
  match lookupLong T n with
  | none => ([wrong], none)
  | some o => match r.drop n.length with
    | [] => if o.takes then ([], some o.val) else ([⟨o.val, none⟩], none)
    | _ :: v => if o.takes then ([⟨o.val, some ⟨v, erange⟩⟩], none) else ([wrong], none)

/-- A word that is an option. -/
def optionWord (T : Tables) (w : Text) : List Event × Option Int32 :=
  match w.bytes with
  | 45 :: 45 :: r => longWord T.longs w.erange r
  | 45 :: r => cluster T.shorts w.erange r
  | _ => ([], none)

/-- A word that is no option. -/
def isWord : Bytes → Bool
  | 45 :: _ :: _ => false
  | _ => true

/-- What is returned if the last option lacks its word: ':' if `shortOpts` begins with it. -/
def missing (T : Tables) : Event := match T.shorts with
  | 58 :: _ => ⟨58, none⟩
  | _ => wrong

/-- All the calls of `getopt_long`: what they return, and the words from `optind` on afterwards.  With an option that waits for its
word. -/
def scan (o : Order) (T : Tables) : Option Int32 → List Text → List Event × List Text
  | none, [] => ([], [])
  | some _, [] => ([missing T], [])
  | some i, w :: ws => (⟨i, some w⟩ :: (scan o T none ws).1, (scan o T none ws).2)
  | none, w :: ws =>
    if w.bytes = [45, 45] then ([], ws)
    else if isWord w.bytes then
      match o with
      | .permute => ((scan o T none ws).1, w :: (scan o T none ws).2)
      | .require => ([], w :: ws)
      | .inOrder => (⟨1, some w⟩ :: (scan o T none ws).1, (scan o T none ws).2)
    else
      let r := optionWord T w
      (r.1 ++ (scan o T r.2 ws).1, (scan o T r.2 ws).2)

/-- The words of a command line, without the name of the program. -/
def wordsOf (posix : Bool) (m : List (Int32 × Opt)) (ws : List Text) : List Event × List Text :=
  let o := ordering posix (tables m).shorts
  scan o.1 ⟨o.2, (tables m).longs⟩ none ws

/-- `ArgParse::Parse` of the words of a command line (src/ArgParse.cc 740-743, 947-1053); `argc` is at least 1. -/
def parseLine (w : World) (posix : Bool) (fuel : Nat) (s : St) (ws : List Text) : Option End :=
  let r := wordsOf posix (addHelpOptions s).1.reg.optionMap ws
  parse w fuel s r.1 r.2

end Verif.Args
