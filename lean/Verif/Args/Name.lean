import Verif.Base.Outcome
/-!
# The name of the program (src/ArgParse.cc 897-945)

`basename` is that of `libgen.h` (src/ArgParse.cc 21).
-/

namespace Verif.Args
open Verif

/-- `'/'`. -/
def slash : UInt8 := 0x2f

/-- A C string: what comes before the first NUL (`strcpy`, src/ArgParse.cc 901). -/
def cstr (s : Bytes) : Bytes := s.takeWhile (· ≠ 0)

/-- `basename` (`libgen.h`): without the slashes at the end, what follows the last slash; `"."` for the empty text, `"/"` for slashes only. -/
def baseName (s : Bytes) : Bytes :=
  if s = [] then [0x2e]
  else
    let r := s.reverse.dropWhile (· = slash)
    if r = [] then [slash] else (r.takeWhile (· ≠ slash)).reverse

/-- What the system says about the program: the answer of `readlink("/proc/self/exe")` with what it stored, and `getenv("_")`. -/
structure Sys where
  linkRet : Int
  link : Bytes
  underscore : Option Bytes
  deriving DecidableEq, Repr

/-- `SetProgramName` (src/ArgParse.cc 897-945) on Linux: the new title.  `readlink` answers the number of bytes it stored in the zeroed
buffer, or -1. -/
def programName (sys : Sys) (pname : Bytes) (doBase : Bool) : Bytes :=
  if pname.length > 0 then
    if doBase then baseName (cstr pname) else pname
  else
    let progname : Option Bytes :=
      if sys.linkRet = 0 then some (cstr (sys.link.take sys.linkRet.toNat)) else none   -- 917-919
    let progname : Option Bytes := match progname with
      | some (c :: cs) => some (c :: cs)
      | _ => sys.underscore.map cstr                                                -- 933-937
    match progname with
    | some (c :: cs) => baseName (c :: cs)
    | _ => "ArgParse".toUTF8.toList

end Verif.Args
