import Verif.Json.Driver
/-!
# The text of the schema of descriptions (src/argparse-schema.cc 4-184, made from src/argparse-schema.yaml)
-/

namespace Verif.Args
open Verif

/-- Lines 6-35 of src/argparse-schema.cc. -/
def schemaLines1 : Bytes := [
  123, 34, 100, 101, 102, 105, 110, 105, 116, 105, 111, 110, 115, 34, 58, 32, 123, 34, 97, 99, 116, 105, 111, 110,
  115, 34, 58, 32, 123, 34, 101, 110, 117, 109, 34, 58, 32, 91, 34, 115, 116, 111, 114, 101, 34, 44, 32, 34, 115,
  116, 111, 114, 101, 95, 99, 111, 110, 115, 116, 34, 44, 32, 34, 115, 116, 111, 114, 101, 95, 116, 114, 117, 101,
  34, 44, 32, 34, 115, 116, 111, 114, 101, 95, 102, 97, 108, 115, 101, 34, 44, 32, 34, 97, 112, 112, 101, 110, 100,
  34, 44, 32, 34, 99, 111, 117, 110, 116, 34, 44, 32, 34, 104, 101, 108, 112, 34, 44, 32, 34, 97, 100, 118, 95, 104,
  101, 108, 112, 34, 44, 32, 34, 99, 111, 110, 102, 105, 103, 34, 44, 32, 34, 99, 111, 110, 102, 105, 103, 95, 106,
  115, 111, 110, 34, 44, 32, 34, 99, 111, 110, 102, 105, 103, 95, 121, 97, 109, 108, 34, 44, 32, 34, 99, 111, 110,
  102, 105, 103, 95, 112, 108, 105, 115, 116, 34, 44, 32, 34, 99, 111, 110, 102, 105, 103, 95, 112, 114, 105, 110,
  116, 34, 93, 125, 44, 32, 34, 116, 121, 112, 101, 115, 34, 58, 32, 123, 34, 101, 110, 117, 109, 34, 58, 32, 91, 34,
  115, 116, 114, 105, 110, 103, 34, 44, 32, 34, 98, 111, 111, 108, 101, 97, 110, 34, 44, 32, 34, 105, 110, 116, 101,
  103, 101, 114, 34, 44, 32, 34, 110, 117, 109, 98, 101, 114, 34, 44, 32, 34, 110, 117, 108, 108, 34, 44, 32, 110,
  117, 108, 108, 93, 125, 44, 32, 34, 111, 112, 116, 105, 111, 110, 66, 97, 115, 101, 34, 58, 32, 123, 34, 114, 101,
  113, 117, 105, 114, 101, 100, 34, 58, 32, 91, 34, 116, 105, 116, 108, 101, 34, 44, 32, 34, 100, 101, 115, 99, 114,
  105, 112, 116, 105, 111, 110, 34, 44, 32, 34, 97, 99, 116, 105, 111, 110, 34, 93, 44, 32, 34, 112, 114, 111, 112,
  101, 114, 116, 105, 101, 115, 34, 58, 32, 123, 34]

/-- Lines 36-65 of src/argparse-schema.cc. -/
def schemaLines2 : Bytes := [
  100, 101, 115, 99, 114, 105, 112, 116, 105, 111, 110, 34, 58, 32, 123, 34, 116, 121, 112, 101, 34, 58, 32, 34, 115,
  116, 114, 105, 110, 103, 34, 125, 44, 32, 34, 109, 105, 110, 76, 101, 110, 103, 116, 104, 34, 58, 32, 123, 34, 109,
  105, 110, 105, 109, 117, 109, 34, 58, 32, 48, 44, 32, 34, 116, 121, 112, 101, 34, 58, 32, 34, 105, 110, 116, 101,
  103, 101, 114, 34, 125, 44, 32, 34, 109, 97, 120, 65, 114, 103, 115, 34, 58, 32, 123, 34, 109, 105, 110, 105, 109,
  117, 109, 34, 58, 32, 48, 44, 32, 34, 116, 121, 112, 101, 34, 58, 32, 34, 105, 110, 116, 101, 103, 101, 114, 34,
  125, 44, 32, 34, 101, 110, 117, 109, 34, 58, 32, 123, 34, 109, 105, 110, 73, 116, 101, 109, 115, 34, 58, 32, 49,
  44, 32, 34, 117, 110, 105, 113, 117, 101, 73, 116, 101, 109, 115, 34, 58, 32, 116, 114, 117, 101, 44, 32, 34, 116,
  121, 112, 101, 34, 58, 32, 34, 97, 114, 114, 97, 121, 34, 44, 32, 34, 105, 116, 101, 109, 115, 34, 58, 32, 123, 34,
  116, 121, 112, 101, 34, 58, 32, 91, 34, 98, 111, 111, 108, 101, 97, 110, 34, 44, 32, 34, 105, 110, 116, 101, 103,
  101, 114, 34, 44, 32, 34, 110, 117, 109, 98, 101, 114, 34, 44, 32, 34, 115, 116, 114, 105, 110, 103, 34, 93, 125,
  125, 44, 32, 34, 109, 105, 110, 105, 109, 117, 109, 34, 58, 32, 123, 34, 116, 121, 112, 101, 34, 58, 32, 34, 110,
  117, 109, 98, 101, 114, 34, 125, 44, 32, 34, 109, 97, 120, 76, 101, 110, 103, 116, 104, 34, 58, 32, 123, 34, 109,
  105, 110, 105, 109, 117, 109, 34, 58, 32, 48, 44, 32, 34, 116, 121, 112, 101, 34, 58, 32, 34, 105, 110, 116, 101,
  103, 101, 114, 34, 125, 44, 32, 34, 109, 105, 110, 65, 114, 103, 115, 34, 58, 32, 123, 34, 109, 105, 110, 105, 109,
  117, 109, 34, 58, 32, 48, 44, 32, 34]

/-- Lines 66-95 of src/argparse-schema.cc. -/
def schemaLines3 : Bytes := [
  116, 121, 112, 101, 34, 58, 32, 34, 105, 110, 116, 101, 103, 101, 114, 34, 125, 44, 32, 34, 97, 100, 118, 97, 110,
  99, 101, 100, 34, 58, 32, 123, 34, 100, 101, 102, 97, 117, 108, 116, 34, 58, 32, 102, 97, 108, 115, 101, 44, 32,
  34, 116, 121, 112, 101, 34, 58, 32, 34, 98, 111, 111, 108, 101, 97, 110, 34, 125, 44, 32, 34, 99, 111, 110, 115,
  116, 34, 58, 32, 123, 125, 44, 32, 34, 116, 105, 116, 108, 101, 34, 58, 32, 123, 34, 116, 121, 112, 101, 34, 58,
  32, 34, 115, 116, 114, 105, 110, 103, 34, 125, 44, 32, 34, 100, 101, 102, 97, 117, 108, 116, 34, 58, 32, 123, 125,
  44, 32, 34, 112, 97, 116, 116, 101, 114, 110, 34, 58, 32, 123, 34, 116, 121, 112, 101, 34, 58, 32, 34, 115, 116,
  114, 105, 110, 103, 34, 44, 32, 34, 102, 111, 114, 109, 97, 116, 34, 58, 32, 34, 114, 101, 103, 101, 120, 34, 125,
  44, 32, 34, 114, 101, 113, 117, 105, 114, 101, 100, 34, 58, 32, 123, 34, 100, 101, 102, 97, 117, 108, 116, 34, 58,
  32, 102, 97, 108, 115, 101, 44, 32, 34, 116, 121, 112, 101, 34, 58, 32, 34, 98, 111, 111, 108, 101, 97, 110, 34,
  125, 44, 32, 34, 109, 97, 120, 105, 109, 117, 109, 34, 58, 32, 123, 34, 116, 121, 112, 101, 34, 58, 32, 34, 110,
  117, 109, 98, 101, 114, 34, 125, 44, 32, 34, 97, 99, 116, 105, 111, 110, 34, 58, 32, 123, 34, 36, 114, 101, 102,
  34, 58, 32, 34, 35, 47, 100, 101, 102, 105, 110, 105, 116, 105, 111, 110, 115, 47, 97, 99, 116, 105, 111, 110, 115,
  34, 125, 44, 32, 34, 116, 121, 112, 101, 34, 58, 32, 123, 34, 36, 114, 101, 102, 34, 58, 32, 34, 35, 47, 100, 101,
  102, 105, 110, 105, 116, 105, 111, 110, 115, 47, 116, 121, 112, 101, 115, 34, 125, 125, 125, 125, 44, 32, 34, 36,
  115, 99, 104, 101, 109, 97, 34, 58, 32, 34]

/-- Lines 96-125 of src/argparse-schema.cc. -/
def schemaLines4 : Bytes := [
  104, 116, 116, 112, 58, 47, 47, 106, 115, 111, 110, 45, 115, 99, 104, 101, 109, 97, 46, 111, 114, 103, 47, 100,
  114, 97, 102, 116, 45, 48, 52, 47, 115, 99, 104, 101, 109, 97, 35, 34, 44, 32, 34, 116, 121, 112, 101, 34, 58, 32,
  34, 111, 98, 106, 101, 99, 116, 34, 44, 32, 34, 112, 114, 111, 112, 101, 114, 116, 105, 101, 115, 34, 58, 32, 123,
  34, 100, 101, 115, 99, 114, 105, 112, 116, 105, 111, 110, 34, 58, 32, 123, 34, 116, 121, 112, 101, 34, 58, 32, 34,
  115, 116, 114, 105, 110, 103, 34, 125, 44, 32, 34, 103, 114, 111, 117, 112, 115, 34, 58, 32, 123, 34, 97, 100, 100,
  105, 116, 105, 111, 110, 97, 108, 80, 114, 111, 112, 101, 114, 116, 105, 101, 115, 34, 58, 32, 123, 34, 116, 121,
  112, 101, 34, 58, 32, 34, 111, 98, 106, 101, 99, 116, 34, 44, 32, 34, 112, 114, 111, 112, 101, 114, 116, 105, 101,
  115, 34, 58, 32, 123, 34, 100, 101, 115, 99, 114, 105, 112, 116, 105, 111, 110, 34, 58, 32, 123, 34, 116, 121, 112,
  101, 34, 58, 32, 34, 115, 116, 114, 105, 110, 103, 34, 125, 44, 32, 34, 109, 101, 109, 98, 101, 114, 115, 34, 58,
  32, 123, 34, 105, 116, 101, 109, 115, 34, 58, 32, 123, 34, 116, 121, 112, 101, 34, 58, 32, 34, 115, 116, 114, 105,
  110, 103, 34, 125, 44, 32, 34, 117, 110, 105, 113, 117, 101, 34, 58, 32, 116, 114, 117, 101, 44, 32, 34, 116, 121,
  112, 101, 34, 58, 32, 34, 97, 114, 114, 97, 121, 34, 125, 44, 32, 34, 116, 105, 116, 108, 101, 34, 58, 32, 123, 34,
  116, 121, 112, 101, 34, 58, 32, 34, 115, 116, 114, 105, 110, 103, 34, 125, 44, 32, 34, 114, 101, 113, 117, 105,
  114, 101, 100, 34, 58, 32, 123, 34, 116, 121, 112, 101, 34, 58, 32, 34, 98, 111, 111, 108, 101, 97, 110, 34, 125,
  44, 32, 34, 97, 100, 118, 97, 110, 99, 101, 100]

/-- Lines 126-155 of src/argparse-schema.cc. -/
def schemaLines5 : Bytes := [
  34, 58, 32, 123, 34, 100, 101, 102, 97, 117, 108, 116, 34, 58, 32, 102, 97, 108, 115, 101, 44, 32, 34, 116, 121,
  112, 101, 34, 58, 32, 34, 98, 111, 111, 108, 101, 97, 110, 34, 125, 44, 32, 34, 109, 117, 116, 117, 97, 108, 108,
  121, 32, 101, 120, 99, 108, 117, 115, 105, 118, 101, 34, 58, 32, 123, 34, 116, 121, 112, 101, 34, 58, 32, 34, 98,
  111, 111, 108, 101, 97, 110, 34, 125, 125, 125, 44, 32, 34, 116, 121, 112, 101, 34, 58, 32, 34, 111, 98, 106, 101,
  99, 116, 34, 125, 44, 32, 34, 116, 105, 116, 108, 101, 34, 58, 32, 123, 34, 116, 121, 112, 101, 34, 58, 32, 34,
  115, 116, 114, 105, 110, 103, 34, 125, 44, 32, 34, 101, 112, 105, 108, 111, 103, 34, 58, 32, 123, 34, 116, 121,
  112, 101, 34, 58, 32, 34, 115, 116, 114, 105, 110, 103, 34, 125, 44, 32, 34, 111, 112, 116, 105, 111, 110, 115, 34,
  58, 32, 123, 34, 97, 100, 100, 105, 116, 105, 111, 110, 97, 108, 80, 114, 111, 112, 101, 114, 116, 105, 101, 115,
  34, 58, 32, 123, 34, 116, 121, 112, 101, 34, 58, 32, 34, 111, 98, 106, 101, 99, 116, 34, 44, 32, 34, 97, 110, 121,
  79, 102, 34, 58, 32, 91, 123, 34, 114, 101, 113, 117, 105, 114, 101, 100, 34, 58, 32, 91, 34, 115, 104, 111, 114,
  116, 79, 112, 116, 105, 111, 110, 34, 93, 125, 44, 32, 123, 34, 114, 101, 113, 117, 105, 114, 101, 100, 34, 58, 32,
  91, 34, 108, 111, 110, 103, 79, 112, 116, 105, 111, 110, 34, 93, 125, 93, 44, 32, 34, 112, 114, 111, 112, 101, 114,
  116, 105, 101, 115, 34, 58, 32, 123, 34, 108, 111, 110, 103, 79, 112, 116, 105, 111, 110, 34, 58, 32, 123, 34, 116,
  121, 112, 101, 34, 58, 32, 34, 115, 116, 114, 105, 110, 103, 34, 125, 44, 32, 34, 115, 104, 111, 114, 116, 79, 112,
  116, 105, 111, 110, 34, 58, 32, 123, 34, 109, 105]

/-- Lines 156-183 of src/argparse-schema.cc. -/
def schemaLines6 : Bytes := [
  110, 76, 101, 110, 103, 116, 104, 34, 58, 32, 49, 44, 32, 34, 116, 121, 112, 101, 34, 58, 32, 34, 115, 116, 114,
  105, 110, 103, 34, 44, 32, 34, 109, 97, 120, 76, 101, 110, 103, 116, 104, 34, 58, 32, 49, 125, 44, 32, 34, 101,
  110, 118, 34, 58, 32, 123, 34, 116, 121, 112, 101, 34, 58, 32, 34, 115, 116, 114, 105, 110, 103, 34, 125, 125, 44,
  32, 34, 97, 108, 108, 79, 102, 34, 58, 32, 91, 123, 34, 36, 114, 101, 102, 34, 58, 32, 34, 35, 47, 100, 101, 102,
  105, 110, 105, 116, 105, 111, 110, 115, 47, 111, 112, 116, 105, 111, 110, 66, 97, 115, 101, 34, 125, 93, 125, 44,
  32, 34, 116, 121, 112, 101, 34, 58, 32, 34, 111, 98, 106, 101, 99, 116, 34, 125, 44, 32, 34, 97, 114, 103, 117,
  109, 101, 110, 116, 115, 34, 58, 32, 123, 34, 105, 116, 101, 109, 115, 34, 58, 32, 123, 34, 114, 101, 113, 117,
  105, 114, 101, 100, 34, 58, 32, 91, 34, 107, 101, 121, 112, 97, 116, 104, 34, 93, 44, 32, 34, 116, 121, 112, 101,
  34, 58, 32, 34, 111, 98, 106, 101, 99, 116, 34, 44, 32, 34, 112, 114, 111, 112, 101, 114, 116, 105, 101, 115, 34,
  58, 32, 123, 34, 107, 101, 121, 112, 97, 116, 104, 34, 58, 32, 123, 34, 116, 121, 112, 101, 34, 58, 32, 34, 115,
  116, 114, 105, 110, 103, 34, 125, 125, 44, 32, 34, 97, 108, 108, 79, 102, 34, 58, 32, 91, 123, 34, 36, 114, 101,
  102, 34, 58, 32, 34, 35, 47, 100, 101, 102, 105, 110, 105, 116, 105, 111, 110, 115, 47, 111, 112, 116, 105, 111,
  110, 66, 97, 115, 101, 34, 125, 93, 125, 44, 32, 34, 116, 121, 112, 101, 34, 58, 32, 34, 97, 114, 114, 97, 121, 34,
  125, 125, 125]

/-- `ARG_PARSE_SCHEMA_STR` (src/argparse-schema.cc 5-184); the NUL at the end is not part of the text. -/
def schemaText : Bytes := schemaLines1 ++ schemaLines2 ++ schemaLines3 ++ schemaLines4 ++ schemaLines5 ++ schemaLines6

end Verif.Args
