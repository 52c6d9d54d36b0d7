import Verif.Tool.Run
/-!
# What a command line asks varsh to do

These definitions speak of the options and words on the command line, not of the parser or the configuration it
makes.
-/
namespace Verif.Tool
open Verif Verif.Args

/-- The words given with an option, in order. -/
def words (k : Int32) (es : List Event) : List Text := (es.filter (·.id = k)).filterMap (·.arg)

/-- The option is on the command line. -/
def mentioned (k : Int32) (es : List Event) : Bool := es.any (·.id = k)

/-- A null is no value. -/
def nonNull : Val → Option Val
  | .null => none
  | v => some v

/-- The value a word is read as; a word that is read as null counts as none. -/
def reading (w : World) (t : Text) : Option Val := nonNull (Guess.guess w.fo t.erange t.bytes)

/-- What a command line asks for. -/
structure Asked where
  /-- read and write with payload -/
  payloadIn : Bool
  payload : Bool
  flatten : Bool
  expand : Bool
  /-- the schemas and where they are looked for -/
  schemas : List Bytes
  dirs : List Bytes
  /-- the part of the document to work on -/
  path : Option Bytes
  /-- the value to put there, or the file it is in -/
  set : Option Val
  setFile : Option Bytes
  list : Bool
  length : Bool
  /-- the file to write to -/
  output : Option Bytes
  /-- the inputs -/
  inputs : List Text

/-- What the options and the other words ask for. -/
def asked (es : List Event) (rest : List Text) (w : World) : Asked where
  payloadIn := mentioned 80 es
  payload := mentioned 112 es
  flatten := mentioned 102 es
  expand := mentioned 101 es
  schemas := (words 258 es).map (·.bytes)
  dirs := [46] :: (words 257 es).map (·.bytes)
  path := (words 259 es).getLast?.map (·.bytes)
  set := (words 260 es).getLast?.bind (reading w)
  setFile := (words 261 es).getLast?.map (·.bytes)
  list := mentioned 262 es
  length := mentioned 263 es
  output := (words 111 es).getLast?.map (·.bytes)
  inputs := rest

/-- How the documents are read and written: the formats and the parameters for writing and for flattening and
expanding. -/
structure How where
  inFormat : Format
  outFormat : Format
  params : Val
  sparams : Val

/-- All schemas are met. -/
def meets (L : Lib) (dirs : List Bytes) (d : Val) : List Bytes → Out Bool
  | [] => .ok true
  | u :: us => do if ← L.valid dirs (.str u) d then meets L dirs d us else .ok false

/-- The document, or the part of it, that is shown: `x` is the value to put in. -/
def shown (path : Option Bytes) (x : Option Val) (d : Val) : Out Val :=
  match x, path with
  | none, none => .ok d
  | none, some p => do getPath d (← PathM.parsePath p)
  | some x, none => .ok x
  | some x, some p => do
    let q ← PathM.parsePath p
    match setPath d q x with
    | (d', none) => .ok d'
    | (_, some e) => .throw e

/-- What is written for a document. -/
def show_ (L : Lib) (a : Asked) (h : How) (d : Val) : Out Bytes :=
  if a.list then keyLines d
  else if a.length then do return natDec (← sizeOut d) ++ [10]
  else if a.payload then L.write true h.outFormat d h.sparams
  else do return (← L.write false h.outFormat d h.sparams) ++ [10]

/-- The document that is worked on. -/
def prepared (L : Lib) (a : Asked) (h : How) (d : Val) : Out Val :=
  if a.flatten then L.flatten d h.params else if a.expand then L.expand d h.params else .ok d

/-- What is written for one input; nothing if its document does not meet a schema. -/
def answer (L : Lib) (a : Asked) (h : How) (x : Option Val) (src : Option Bytes) : Out (Option Bytes) := do
  let d ← L.read a.payloadIn h.inFormat src
  let d ← prepared L a h d
  if ← meets L a.dirs d a.schemas then
    return some (← show_ L a h (← shown a.path x d))
  else return none

/-- The file a word names.  The word is read as a value first. -/
def named (L : Lib) (w : World) (t : Text) : Bytes :=
  match Build.asString L.fltText (Guess.guess w.fo t.erange t.bytes) with
  | .ok b => cText b
  | _ => []

/-- One input after the other, until one fails. -/
def answers (f : Option Bytes → Out (Option Bytes)) : List (Option Bytes) → Bytes × Ending
  | [] => ([], .done)
  | src :: r => match f src with
    | .ok (some b) => let (bs, e) := answers f r; (b ++ bs, e)
    | .ok none => ([], .failed)
    | .throw e => ([], .threw e)
    | .ub => ([], .undefined)

/-- All of it. -/
def carriedOut (L : Lib) (w : World) (a : Asked) (h : How) : Run :=
  match (match a.setFile with
    | none => .ok a.set
    | some f => some <$> L.readAny (cText f) : Out (Option Val)) with
  | .ok x =>
    let r := answers (answer L a h x) (if a.inputs = [] then [none] else a.inputs.map fun t => some (named L w t))
    ⟨a.output.map cText, r.1, r.2⟩
  | o => ⟨none, [], stopped o⟩

end Verif.Tool
