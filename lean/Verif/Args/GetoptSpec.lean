import Verif.Args.Parse
/-!
# How a command line is read

This does not mention the tables of `getopt_long` or how it goes about it.
-/

namespace Verif.Args
open Verif JsonDrv Schema

/-- The name is a way to write the long option `o`: all of it, or a beginning that is the name of no option and the beginning of no
other. -/
def Means (s : St) (n : Bytes) (o : Opt) : Prop :=
  s.entry o.id = some o ∧ o.long ≠ [] ∧
    (o.long = n ∨
      (n <+: o.long ∧ ∀ i p, s.entry i = some p → p.long ≠ [] → n <+: p.long → p.long ≠ n ∧ i = o.id))

/-- The character of a short option. -/
def shortChar (o : Opt) : UInt8 := (toChar o.short).toUInt8

/-- A short option without a value. -/
def IsFlag (s : St) (o : Opt) : Prop := s.entry o.id = some o ∧ o.short > 0 ∧ hasArg o.cfg.action = false

/-- A short option with a value. -/
def IsTaker (s : St) (o : Opt) : Prop := s.entry o.id = some o ∧ o.short > 0 ∧ hasArg o.cfg.action = true

/-- The mention of options without value. -/
def mentions (os : List Opt) : List Event := os.map fun o => ⟨o.id, none⟩

/-- The words of the command line mention these options, with these values, in this order, and these other words.  `posix`: the options
end at the first other word. -/
inductive Reads (posix : Bool) (s : St) : List Text → List Event → List Text → Prop
  | done : Reads posix s [] [] []
  /-- after "--" there are no options -/
  | stop {e : Bool} {ws : List Text} : Reads posix s (⟨[45, 45], e⟩ :: ws) [] ws
  /-- a word that does not begin with "-", or "-" itself -/
  | word {t : Text} {ws rest : List Text} {es : List Event} : posix = false → (t.bytes.head? ≠ some 45 ∨ t.bytes = [45]) →
      Reads posix s ws es rest → Reads posix s (t :: ws) es (t :: rest)
  | words {t : Text} {ws : List Text} : posix = true → (t.bytes.head? ≠ some 45 ∨ t.bytes = [45]) → Reads posix s (t :: ws) [] (t :: ws)
  /-- `--name` -/
  | long {n : Bytes} {e : Bool} {o : Opt} {ws rest : List Text} {es : List Event} : n ≠ [] → 61 ∉ n → Means s n o → hasArg o.cfg.action = false →
      Reads posix s ws es rest → Reads posix s (⟨45 :: 45 :: n, e⟩ :: ws) (⟨o.id, none⟩ :: es) rest
  /-- `--name=value` -/
  | longWith {n v : Bytes} {e : Bool} {o : Opt} {ws rest : List Text} {es : List Event} : 61 ∉ n → Means s n o → hasArg o.cfg.action = true →
      Reads posix s ws es rest → Reads posix s (⟨45 :: 45 :: (n ++ 61 :: v), e⟩ :: ws) (⟨o.id, some ⟨v, e⟩⟩ :: es) rest
  /-- `--name value` -/
  | longNext {n : Bytes} {e : Bool} {t : Text} {o : Opt} {ws rest : List Text} {es : List Event} : n ≠ [] → 61 ∉ n → Means s n o →
      hasArg o.cfg.action = true → Reads posix s ws es rest → Reads posix s (⟨45 :: 45 :: n, e⟩ :: t :: ws) (⟨o.id, some t⟩ :: es) rest
  /-- `-abc` -/
  | shorts {os : List Opt} {e : Bool} {ws rest : List Text} {es : List Event} : os ≠ [] → (∀ o ∈ os, IsFlag s o) →
      Reads posix s ws es rest → Reads posix s (⟨45 :: os.map shortChar, e⟩ :: ws) (mentions os ++ es) rest
  /-- `-abcvalue` -/
  | shortsWith {os : List Opt} {o : Opt} {v : Bytes} {e : Bool} {ws rest : List Text} {es : List Event} : (∀ o ∈ os, IsFlag s o) → IsTaker s o → v ≠ [] →
      Reads posix s ws es rest → Reads posix s (⟨45 :: (os.map shortChar ++ shortChar o :: v), e⟩ :: ws) (mentions os ++ ⟨o.id, some ⟨v, e⟩⟩ :: es) rest
  /-- `-abc value` -/
  | shortsNext {os : List Opt} {o : Opt} {t : Text} {e : Bool} {ws rest : List Text} {es : List Event} : (∀ o ∈ os, IsFlag s o) → IsTaker s o →
      Reads posix s ws es rest → Reads posix s (⟨45 :: (os.map shortChar ++ [shortChar o]), e⟩ :: t :: ws) (mentions os ++ ⟨o.id, some t⟩ :: es) rest

/-- Names that can be written on a command line: a short option is an ASCII character and none of "+-:;?", a long one has no "=" and no NUL. -/
structure Writable (o : Opt) : Prop where
  short : o.short > 0 → o.short ≤ 127 ∧ o.short ≠ 43 ∧ o.short ≠ 45 ∧ o.short ≠ 58 ∧ o.short ≠ 59 ∧ o.short ≠ 63
  long : 61 ∉ o.long ∧ 0 ∉ o.long

end Verif.Args
