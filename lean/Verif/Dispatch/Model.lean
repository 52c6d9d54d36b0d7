import Verif.Base.Outcome
/-!
# Which emitter and parser a serialization type gives (src/Emitter.cc 170-217, src/Parser.cc 73-124, src/GuessFormat.cc)
-/

namespace Verif.Dispatch

/-- The emitters and parsers there are. -/
inductive Fmt where
  | json | yaml | xml | bundle | msgpack
  deriving DecidableEq, Repr

/-- What is compiled in: ENABLE_YAML, ENABLE_XML, ENABLE_MSGPACK. -/
structure Build where
  yaml : Bool
  xml : Bool
  msgpack : Bool

/-- `SerializeType` (include/Variant/Variant.h 579-590): any number can be passed. -/
abbrev Ty := Int

def GUESS : Ty := 0
def JSON : Ty := 1
def YAML : Ty := 2
def XMLPLIST : Ty := 3
def BUNDLEHDR : Ty := 4
def MSGPACK : Ty := 255

/-- `YAMLEmitter`, `YAMLParser` (src/Emitter.cc 191-197, src/Parser.cc 99-105). -/
def mkYaml (b : Build) : Out Fmt := if b.yaml then .ok .yaml else .throw .runtime
/-- `XMLPLISTEmitter`, `XMLPLISTParser` (src/Emitter.cc 199-205, src/Parser.cc 106-112). -/
def mkXml (b : Build) : Out Fmt := if b.xml then .ok .xml else .throw .runtime
/-- `MsgPackEmitter`, `MsgPackParser` (src/Emitter.cc 211-217, src/Parser.cc 118-124). -/
def mkMsgPack (b : Build) : Out Fmt := if b.msgpack then .ok .msgpack else .throw .runtime

/-- `CreateEmitter` (src/Emitter.cc 170-185), with 187-189 and 207-209. -/
def createEmitter (b : Build) (t : Ty) : Out Fmt :=
  if t = JSON then .ok .json
  else if t = XMLPLIST then mkXml b
  else if t = BUNDLEHDR then .ok .bundle
  else if t = YAML then mkYaml b
  else if t = MSGPACK then mkMsgPack b
  else .throw .runtime

/-- How an input begins: it gives no bytes at all, nothing but blanks, or `c` is its first character that is no blank. -/
inductive Begin where
  | empty | blank
  | char (c : UInt8)

/-- `GuessFormat` (src/GuessFormat.cc 9-53) on an input that begins so.  How it finds that out is modelled in Bundle/Model, for a build with
everything in. -/
def guessFormat (b : Build) : Begin → Out Ty
  | .empty => if b.yaml then .ok YAML else .throw .runtime
  | .blank => .throw .runtime
  | .char c =>
    if c = 60 then (if b.xml then .ok XMLPLIST else .throw .runtime)
    else if b.yaml then .ok YAML else .ok JSON

/-- `CreateParser` and `CreateParserGuess` (src/Parser.cc 73-94), with 96-98 and 114-116; `fuel` bounds how often they call each other. -/
def createParser (b : Build) (first : Begin) : Nat → Ty → Option (Out Fmt)
  | 0, _ => none
  | fuel + 1, t =>
    if t = XMLPLIST then some (mkXml b)
    else if t = JSON then some (.ok .json)
    else if t = BUNDLEHDR then some (.ok .bundle)
    else if t = GUESS then
      match guessFormat b first with
      | .ok t => createParser b first fuel t
      | .throw e => some (.throw e)
      | .ub => some .ub
    else if t = MSGPACK then some (mkMsgPack b)
    else some (mkYaml b)

end Verif.Dispatch
