import Verif.Json.Driver
/-!
# The text of the JSON schema of JSON schemas (src/json-schema-v4.cc 3-371, made from src/json-schema-v4.json)
-/

namespace Verif.Schema
open Verif

/-- Lines 1-8 of src/json-schema-v4.json, the bytes of src/json-schema-v4.cc 6-370. -/
def metaLines1 : Bytes := [
  123, 10, 32, 32, 32, 32, 34, 105, 100, 34, 58, 32, 34, 104, 116, 116, 112, 58, 47, 47, 106, 115, 111, 110, 45, 115,
  99, 104, 101, 109, 97, 46, 111, 114, 103, 47, 100, 114, 97, 102, 116, 45, 48, 52, 47, 115, 99, 104, 101, 109, 97, 35,
  34, 44, 10, 32, 32, 32, 32, 34, 36, 115, 99, 104, 101, 109, 97, 34, 58, 32, 34, 104, 116, 116, 112, 58, 47, 47, 106,
  115, 111, 110, 45, 115, 99, 104, 101, 109, 97, 46, 111, 114, 103, 47, 100, 114, 97, 102, 116, 45, 48, 52, 47, 115,
  99, 104, 101, 109, 97, 35, 34, 44, 10, 32, 32, 32, 32, 34, 100, 101, 115, 99, 114, 105, 112, 116, 105, 111, 110, 34,
  58, 32, 34, 67, 111, 114, 101, 32, 115, 99, 104, 101, 109, 97, 32, 109, 101, 116, 97, 45, 115, 99, 104, 101, 109, 97,
  34, 44, 10, 32, 32, 32, 32, 34, 100, 101, 102, 105, 110, 105, 116, 105, 111, 110, 115, 34, 58, 32, 123, 10, 32, 32,
  32, 32, 32, 32, 32, 32, 34, 115, 99, 104, 101, 109, 97, 65, 114, 114, 97, 121, 34, 58, 32, 123, 10, 32, 32, 32, 32,
  32, 32, 32, 32, 32, 32, 32, 32, 34, 116, 121, 112, 101, 34, 58, 32, 34, 97, 114, 114, 97, 121, 34, 44, 10, 32, 32,
  32, 32, 32, 32, 32, 32, 32, 32, 32, 32, 34, 109, 105, 110, 73, 116, 101, 109, 115, 34, 58, 32, 49, 44, 10]

/-- Lines 9-16 of src/json-schema-v4.json, the bytes of src/json-schema-v4.cc 6-370. -/
def metaLines2 : Bytes := [
  32, 32, 32, 32, 32, 32, 32, 32, 32, 32, 32, 32, 34, 105, 116, 101, 109, 115, 34, 58, 32, 123, 32, 34, 36, 114, 101,
  102, 34, 58, 32, 34, 35, 34, 32, 125, 10, 32, 32, 32, 32, 32, 32, 32, 32, 125, 44, 10, 32, 32, 32, 32, 32, 32, 32,
  32, 34, 112, 111, 115, 105, 116, 105, 118, 101, 73, 110, 116, 101, 103, 101, 114, 34, 58, 32, 123, 10, 32, 32, 32,
  32, 32, 32, 32, 32, 32, 32, 32, 32, 34, 116, 121, 112, 101, 34, 58, 32, 34, 105, 110, 116, 101, 103, 101, 114, 34,
  44, 10, 32, 32, 32, 32, 32, 32, 32, 32, 32, 32, 32, 32, 34, 109, 105, 110, 105, 109, 117, 109, 34, 58, 32, 48, 10,
  32, 32, 32, 32, 32, 32, 32, 32, 125, 44, 10, 32, 32, 32, 32, 32, 32, 32, 32, 34, 112, 111, 115, 105, 116, 105, 118,
  101, 73, 110, 116, 101, 103, 101, 114, 68, 101, 102, 97, 117, 108, 116, 48, 34, 58, 32, 123, 10, 32, 32, 32, 32, 32,
  32, 32, 32, 32, 32, 32, 32, 34, 97, 108, 108, 79, 102, 34, 58, 32, 91, 32, 123, 32, 34, 36, 114, 101, 102, 34, 58,
  32, 34, 35, 47, 100, 101, 102, 105, 110, 105, 116, 105, 111, 110, 115, 47, 112, 111, 115, 105, 116, 105, 118, 101,
  73, 110, 116, 101, 103, 101, 114, 34, 32, 125, 44, 32, 123, 32, 34, 100, 101, 102, 97, 117, 108, 116, 34, 58, 32, 48,
  32, 125, 32, 93, 10]

/-- Lines 17-24 of src/json-schema-v4.json, the bytes of src/json-schema-v4.cc 6-370. -/
def metaLines3 : Bytes := [
  32, 32, 32, 32, 32, 32, 32, 32, 125, 44, 10, 32, 32, 32, 32, 32, 32, 32, 32, 34, 115, 105, 109, 112, 108, 101, 84,
  121, 112, 101, 115, 34, 58, 32, 123, 10, 32, 32, 32, 32, 32, 32, 32, 32, 32, 32, 32, 32, 34, 101, 110, 117, 109, 34,
  58, 32, 91, 32, 34, 97, 114, 114, 97, 121, 34, 44, 32, 34, 98, 111, 111, 108, 101, 97, 110, 34, 44, 32, 34, 105, 110,
  116, 101, 103, 101, 114, 34, 44, 32, 34, 110, 117, 108, 108, 34, 44, 32, 34, 110, 117, 109, 98, 101, 114, 34, 44, 32,
  34, 111, 98, 106, 101, 99, 116, 34, 44, 32, 34, 115, 116, 114, 105, 110, 103, 34, 32, 93, 10, 32, 32, 32, 32, 32, 32,
  32, 32, 125, 44, 10, 32, 32, 32, 32, 32, 32, 32, 32, 34, 115, 116, 114, 105, 110, 103, 65, 114, 114, 97, 121, 34, 58,
  32, 123, 10, 32, 32, 32, 32, 32, 32, 32, 32, 32, 32, 32, 32, 34, 116, 121, 112, 101, 34, 58, 32, 34, 97, 114, 114,
  97, 121, 34, 44, 10, 32, 32, 32, 32, 32, 32, 32, 32, 32, 32, 32, 32, 34, 105, 116, 101, 109, 115, 34, 58, 32, 123,
  32, 34, 116, 121, 112, 101, 34, 58, 32, 34, 115, 116, 114, 105, 110, 103, 34, 32, 125, 44, 10, 32, 32, 32, 32, 32,
  32, 32, 32, 32, 32, 32, 32, 34, 109, 105, 110, 73, 116, 101, 109, 115, 34, 58, 32, 49, 44, 10]

/-- Lines 25-32 of src/json-schema-v4.json, the bytes of src/json-schema-v4.cc 6-370. -/
def metaLines4 : Bytes := [
  32, 32, 32, 32, 32, 32, 32, 32, 32, 32, 32, 32, 34, 117, 110, 105, 113, 117, 101, 73, 116, 101, 109, 115, 34, 58, 32,
  116, 114, 117, 101, 10, 32, 32, 32, 32, 32, 32, 32, 32, 125, 10, 32, 32, 32, 32, 125, 44, 10, 32, 32, 32, 32, 34,
  116, 121, 112, 101, 34, 58, 32, 34, 111, 98, 106, 101, 99, 116, 34, 44, 10, 32, 32, 32, 32, 34, 112, 114, 111, 112,
  101, 114, 116, 105, 101, 115, 34, 58, 32, 123, 10, 32, 32, 32, 32, 32, 32, 32, 32, 34, 105, 100, 34, 58, 32, 123, 10,
  32, 32, 32, 32, 32, 32, 32, 32, 32, 32, 32, 32, 34, 116, 121, 112, 101, 34, 58, 32, 34, 115, 116, 114, 105, 110, 103,
  34, 44, 10, 32, 32, 32, 32, 32, 32, 32, 32, 32, 32, 32, 32, 34, 102, 111, 114, 109, 97, 116, 34, 58, 32, 34, 117,
  114, 105, 34, 10]

/-- Lines 33-40 of src/json-schema-v4.json, the bytes of src/json-schema-v4.cc 6-370. -/
def metaLines5 : Bytes := [
  32, 32, 32, 32, 32, 32, 32, 32, 125, 44, 10, 32, 32, 32, 32, 32, 32, 32, 32, 34, 36, 115, 99, 104, 101, 109, 97, 34,
  58, 32, 123, 10, 32, 32, 32, 32, 32, 32, 32, 32, 32, 32, 32, 32, 34, 116, 121, 112, 101, 34, 58, 32, 34, 115, 116,
  114, 105, 110, 103, 34, 44, 10, 32, 32, 32, 32, 32, 32, 32, 32, 32, 32, 32, 32, 34, 102, 111, 114, 109, 97, 116, 34,
  58, 32, 34, 117, 114, 105, 34, 10, 32, 32, 32, 32, 32, 32, 32, 32, 125, 44, 10, 32, 32, 32, 32, 32, 32, 32, 32, 34,
  116, 105, 116, 108, 101, 34, 58, 32, 123, 10, 32, 32, 32, 32, 32, 32, 32, 32, 32, 32, 32, 32, 34, 116, 121, 112, 101,
  34, 58, 32, 34, 115, 116, 114, 105, 110, 103, 34, 10, 32, 32, 32, 32, 32, 32, 32, 32, 125, 44, 10]

/-- Lines 41-48 of src/json-schema-v4.json, the bytes of src/json-schema-v4.cc 6-370. -/
def metaLines6 : Bytes := [
  32, 32, 32, 32, 32, 32, 32, 32, 34, 100, 101, 115, 99, 114, 105, 112, 116, 105, 111, 110, 34, 58, 32, 123, 10, 32,
  32, 32, 32, 32, 32, 32, 32, 32, 32, 32, 32, 34, 116, 121, 112, 101, 34, 58, 32, 34, 115, 116, 114, 105, 110, 103, 34,
  10, 32, 32, 32, 32, 32, 32, 32, 32, 125, 44, 10, 32, 32, 32, 32, 32, 32, 32, 32, 34, 100, 101, 102, 97, 117, 108,
  116, 34, 58, 32, 123, 125, 44, 10, 32, 32, 32, 32, 32, 32, 32, 32, 34, 109, 117, 108, 116, 105, 112, 108, 101, 79,
  102, 34, 58, 32, 123, 10, 32, 32, 32, 32, 32, 32, 32, 32, 32, 32, 32, 32, 34, 116, 121, 112, 101, 34, 58, 32, 34,
  110, 117, 109, 98, 101, 114, 34, 44, 10, 32, 32, 32, 32, 32, 32, 32, 32, 32, 32, 32, 32, 34, 109, 105, 110, 105, 109,
  117, 109, 34, 58, 32, 48, 44, 10, 32, 32, 32, 32, 32, 32, 32, 32, 32, 32, 32, 32, 34, 101, 120, 99, 108, 117, 115,
  105, 118, 101, 77, 105, 110, 105, 109, 117, 109, 34, 58, 32, 116, 114, 117, 101, 10]

/-- Lines 49-56 of src/json-schema-v4.json, the bytes of src/json-schema-v4.cc 6-370. -/
def metaLines7 : Bytes := [
  32, 32, 32, 32, 32, 32, 32, 32, 125, 44, 10, 32, 32, 32, 32, 32, 32, 32, 32, 34, 109, 97, 120, 105, 109, 117, 109,
  34, 58, 32, 123, 10, 32, 32, 32, 32, 32, 32, 32, 32, 32, 32, 32, 32, 34, 116, 121, 112, 101, 34, 58, 32, 34, 110,
  117, 109, 98, 101, 114, 34, 10, 32, 32, 32, 32, 32, 32, 32, 32, 125, 44, 10, 32, 32, 32, 32, 32, 32, 32, 32, 34, 101,
  120, 99, 108, 117, 115, 105, 118, 101, 77, 97, 120, 105, 109, 117, 109, 34, 58, 32, 123, 10, 32, 32, 32, 32, 32, 32,
  32, 32, 32, 32, 32, 32, 34, 116, 121, 112, 101, 34, 58, 32, 34, 98, 111, 111, 108, 101, 97, 110, 34, 44, 10, 32, 32,
  32, 32, 32, 32, 32, 32, 32, 32, 32, 32, 34, 100, 101, 102, 97, 117, 108, 116, 34, 58, 32, 102, 97, 108, 115, 101, 10,
  32, 32, 32, 32, 32, 32, 32, 32, 125, 44, 10]

/-- Lines 57-64 of src/json-schema-v4.json, the bytes of src/json-schema-v4.cc 6-370. -/
def metaLines8 : Bytes := [
  32, 32, 32, 32, 32, 32, 32, 32, 34, 109, 105, 110, 105, 109, 117, 109, 34, 58, 32, 123, 10, 32, 32, 32, 32, 32, 32,
  32, 32, 32, 32, 32, 32, 34, 116, 121, 112, 101, 34, 58, 32, 34, 110, 117, 109, 98, 101, 114, 34, 10, 32, 32, 32, 32,
  32, 32, 32, 32, 125, 44, 10, 32, 32, 32, 32, 32, 32, 32, 32, 34, 101, 120, 99, 108, 117, 115, 105, 118, 101, 77, 105,
  110, 105, 109, 117, 109, 34, 58, 32, 123, 10, 32, 32, 32, 32, 32, 32, 32, 32, 32, 32, 32, 32, 34, 116, 121, 112, 101,
  34, 58, 32, 34, 98, 111, 111, 108, 101, 97, 110, 34, 44, 10, 32, 32, 32, 32, 32, 32, 32, 32, 32, 32, 32, 32, 34, 100,
  101, 102, 97, 117, 108, 116, 34, 58, 32, 102, 97, 108, 115, 101, 10, 32, 32, 32, 32, 32, 32, 32, 32, 125, 44, 10, 32,
  32, 32, 32, 32, 32, 32, 32, 34, 109, 97, 120, 76, 101, 110, 103, 116, 104, 34, 58, 32, 123, 32, 34, 36, 114, 101,
  102, 34, 58, 32, 34, 35, 47, 100, 101, 102, 105, 110, 105, 116, 105, 111, 110, 115, 47, 112, 111, 115, 105, 116, 105,
  118, 101, 73, 110, 116, 101, 103, 101, 114, 34, 32, 125, 44, 10]

/-- Lines 65-72 of src/json-schema-v4.json, the bytes of src/json-schema-v4.cc 6-370. -/
def metaLines9 : Bytes := [
  32, 32, 32, 32, 32, 32, 32, 32, 34, 109, 105, 110, 76, 101, 110, 103, 116, 104, 34, 58, 32, 123, 32, 34, 36, 114,
  101, 102, 34, 58, 32, 34, 35, 47, 100, 101, 102, 105, 110, 105, 116, 105, 111, 110, 115, 47, 112, 111, 115, 105, 116,
  105, 118, 101, 73, 110, 116, 101, 103, 101, 114, 68, 101, 102, 97, 117, 108, 116, 48, 34, 32, 125, 44, 10, 32, 32,
  32, 32, 32, 32, 32, 32, 34, 112, 97, 116, 116, 101, 114, 110, 34, 58, 32, 123, 10, 32, 32, 32, 32, 32, 32, 32, 32,
  32, 32, 32, 32, 34, 116, 121, 112, 101, 34, 58, 32, 34, 115, 116, 114, 105, 110, 103, 34, 44, 10, 32, 32, 32, 32, 32,
  32, 32, 32, 32, 32, 32, 32, 34, 102, 111, 114, 109, 97, 116, 34, 58, 32, 34, 114, 101, 103, 101, 120, 34, 10, 32, 32,
  32, 32, 32, 32, 32, 32, 125, 44, 10, 32, 32, 32, 32, 32, 32, 32, 32, 34, 97, 100, 100, 105, 116, 105, 111, 110, 97,
  108, 73, 116, 101, 109, 115, 34, 58, 32, 123, 10, 32, 32, 32, 32, 32, 32, 32, 32, 32, 32, 32, 32, 34, 97, 110, 121,
  79, 102, 34, 58, 32, 91, 10, 32, 32, 32, 32, 32, 32, 32, 32, 32, 32, 32, 32, 32, 32, 32, 32, 123, 32, 34, 116, 121,
  112, 101, 34, 58, 32, 34, 98, 111, 111, 108, 101, 97, 110, 34, 32, 125, 44, 10]

/-- Lines 73-80 of src/json-schema-v4.json, the bytes of src/json-schema-v4.cc 6-370. -/
def metaLines10 : Bytes := [
  32, 32, 32, 32, 32, 32, 32, 32, 32, 32, 32, 32, 32, 32, 32, 32, 123, 32, 34, 36, 114, 101, 102, 34, 58, 32, 34, 35,
  34, 32, 125, 10, 32, 32, 32, 32, 32, 32, 32, 32, 32, 32, 32, 32, 93, 44, 10, 32, 32, 32, 32, 32, 32, 32, 32, 32, 32,
  32, 32, 34, 100, 101, 102, 97, 117, 108, 116, 34, 58, 32, 123, 125, 10, 32, 32, 32, 32, 32, 32, 32, 32, 125, 44, 10,
  32, 32, 32, 32, 32, 32, 32, 32, 34, 105, 116, 101, 109, 115, 34, 58, 32, 123, 10, 32, 32, 32, 32, 32, 32, 32, 32, 32,
  32, 32, 32, 34, 97, 110, 121, 79, 102, 34, 58, 32, 91, 10, 32, 32, 32, 32, 32, 32, 32, 32, 32, 32, 32, 32, 32, 32,
  32, 32, 123, 32, 34, 36, 114, 101, 102, 34, 58, 32, 34, 35, 34, 32, 125, 44, 10, 32, 32, 32, 32, 32, 32, 32, 32, 32,
  32, 32, 32, 32, 32, 32, 32, 123, 32, 34, 36, 114, 101, 102, 34, 58, 32, 34, 35, 47, 100, 101, 102, 105, 110, 105,
  116, 105, 111, 110, 115, 47, 115, 99, 104, 101, 109, 97, 65, 114, 114, 97, 121, 34, 32, 125, 10]

/-- Lines 81-88 of src/json-schema-v4.json, the bytes of src/json-schema-v4.cc 6-370. -/
def metaLines11 : Bytes := [
  32, 32, 32, 32, 32, 32, 32, 32, 32, 32, 32, 32, 93, 44, 10, 32, 32, 32, 32, 32, 32, 32, 32, 32, 32, 32, 32, 34, 100,
  101, 102, 97, 117, 108, 116, 34, 58, 32, 123, 125, 10, 32, 32, 32, 32, 32, 32, 32, 32, 125, 44, 10, 32, 32, 32, 32,
  32, 32, 32, 32, 34, 109, 97, 120, 73, 116, 101, 109, 115, 34, 58, 32, 123, 32, 34, 36, 114, 101, 102, 34, 58, 32, 34,
  35, 47, 100, 101, 102, 105, 110, 105, 116, 105, 111, 110, 115, 47, 112, 111, 115, 105, 116, 105, 118, 101, 73, 110,
  116, 101, 103, 101, 114, 34, 32, 125, 44, 10, 32, 32, 32, 32, 32, 32, 32, 32, 34, 109, 105, 110, 73, 116, 101, 109,
  115, 34, 58, 32, 123, 32, 34, 36, 114, 101, 102, 34, 58, 32, 34, 35, 47, 100, 101, 102, 105, 110, 105, 116, 105, 111,
  110, 115, 47, 112, 111, 115, 105, 116, 105, 118, 101, 73, 110, 116, 101, 103, 101, 114, 68, 101, 102, 97, 117, 108,
  116, 48, 34, 32, 125, 44, 10, 32, 32, 32, 32, 32, 32, 32, 32, 34, 117, 110, 105, 113, 117, 101, 73, 116, 101, 109,
  115, 34, 58, 32, 123, 10, 32, 32, 32, 32, 32, 32, 32, 32, 32, 32, 32, 32, 34, 116, 121, 112, 101, 34, 58, 32, 34, 98,
  111, 111, 108, 101, 97, 110, 34, 44, 10, 32, 32, 32, 32, 32, 32, 32, 32, 32, 32, 32, 32, 34, 100, 101, 102, 97, 117,
  108, 116, 34, 58, 32, 102, 97, 108, 115, 101, 10]

/-- Lines 89-96 of src/json-schema-v4.json, the bytes of src/json-schema-v4.cc 6-370. -/
def metaLines12 : Bytes := [
  32, 32, 32, 32, 32, 32, 32, 32, 125, 44, 10, 32, 32, 32, 32, 32, 32, 32, 32, 34, 109, 97, 120, 80, 114, 111, 112,
  101, 114, 116, 105, 101, 115, 34, 58, 32, 123, 32, 34, 36, 114, 101, 102, 34, 58, 32, 34, 35, 47, 100, 101, 102, 105,
  110, 105, 116, 105, 111, 110, 115, 47, 112, 111, 115, 105, 116, 105, 118, 101, 73, 110, 116, 101, 103, 101, 114, 34,
  32, 125, 44, 10, 32, 32, 32, 32, 32, 32, 32, 32, 34, 109, 105, 110, 80, 114, 111, 112, 101, 114, 116, 105, 101, 115,
  34, 58, 32, 123, 32, 34, 36, 114, 101, 102, 34, 58, 32, 34, 35, 47, 100, 101, 102, 105, 110, 105, 116, 105, 111, 110,
  115, 47, 112, 111, 115, 105, 116, 105, 118, 101, 73, 110, 116, 101, 103, 101, 114, 68, 101, 102, 97, 117, 108, 116,
  48, 34, 32, 125, 44, 10, 32, 32, 32, 32, 32, 32, 32, 32, 34, 114, 101, 113, 117, 105, 114, 101, 100, 34, 58, 32, 123,
  32, 34, 36, 114, 101, 102, 34, 58, 32, 34, 35, 47, 100, 101, 102, 105, 110, 105, 116, 105, 111, 110, 115, 47, 115,
  116, 114, 105, 110, 103, 65, 114, 114, 97, 121, 34, 32, 125, 44, 10, 32, 32, 32, 32, 32, 32, 32, 32, 34, 97, 100,
  100, 105, 116, 105, 111, 110, 97, 108, 80, 114, 111, 112, 101, 114, 116, 105, 101, 115, 34, 58, 32, 123, 10, 32, 32,
  32, 32, 32, 32, 32, 32, 32, 32, 32, 32, 34, 97, 110, 121, 79, 102, 34, 58, 32, 91, 10, 32, 32, 32, 32, 32, 32, 32,
  32, 32, 32, 32, 32, 32, 32, 32, 32, 123, 32, 34, 116, 121, 112, 101, 34, 58, 32, 34, 98, 111, 111, 108, 101, 97, 110,
  34, 32, 125, 44, 10, 32, 32, 32, 32, 32, 32, 32, 32, 32, 32, 32, 32, 32, 32, 32, 32, 123, 32, 34, 36, 114, 101, 102,
  34, 58, 32, 34, 35, 34, 32, 125, 10]

/-- Lines 97-104 of src/json-schema-v4.json, the bytes of src/json-schema-v4.cc 6-370. -/
def metaLines13 : Bytes := [
  32, 32, 32, 32, 32, 32, 32, 32, 32, 32, 32, 32, 93, 44, 10, 32, 32, 32, 32, 32, 32, 32, 32, 32, 32, 32, 32, 34, 100,
  101, 102, 97, 117, 108, 116, 34, 58, 32, 123, 125, 10, 32, 32, 32, 32, 32, 32, 32, 32, 125, 44, 10, 32, 32, 32, 32,
  32, 32, 32, 32, 34, 100, 101, 102, 105, 110, 105, 116, 105, 111, 110, 115, 34, 58, 32, 123, 10, 32, 32, 32, 32, 32,
  32, 32, 32, 32, 32, 32, 32, 34, 116, 121, 112, 101, 34, 58, 32, 34, 111, 98, 106, 101, 99, 116, 34, 44, 10, 32, 32,
  32, 32, 32, 32, 32, 32, 32, 32, 32, 32, 34, 97, 100, 100, 105, 116, 105, 111, 110, 97, 108, 80, 114, 111, 112, 101,
  114, 116, 105, 101, 115, 34, 58, 32, 123, 32, 34, 36, 114, 101, 102, 34, 58, 32, 34, 35, 34, 32, 125, 44, 10, 32, 32,
  32, 32, 32, 32, 32, 32, 32, 32, 32, 32, 34, 100, 101, 102, 97, 117, 108, 116, 34, 58, 32, 123, 125, 10, 32, 32, 32,
  32, 32, 32, 32, 32, 125, 44, 10]

/-- Lines 105-112 of src/json-schema-v4.json, the bytes of src/json-schema-v4.cc 6-370. -/
def metaLines14 : Bytes := [
  32, 32, 32, 32, 32, 32, 32, 32, 34, 112, 114, 111, 112, 101, 114, 116, 105, 101, 115, 34, 58, 32, 123, 10, 32, 32,
  32, 32, 32, 32, 32, 32, 32, 32, 32, 32, 34, 116, 121, 112, 101, 34, 58, 32, 34, 111, 98, 106, 101, 99, 116, 34, 44,
  10, 32, 32, 32, 32, 32, 32, 32, 32, 32, 32, 32, 32, 34, 97, 100, 100, 105, 116, 105, 111, 110, 97, 108, 80, 114, 111,
  112, 101, 114, 116, 105, 101, 115, 34, 58, 32, 123, 32, 34, 36, 114, 101, 102, 34, 58, 32, 34, 35, 34, 32, 125, 44,
  10, 32, 32, 32, 32, 32, 32, 32, 32, 32, 32, 32, 32, 34, 100, 101, 102, 97, 117, 108, 116, 34, 58, 32, 123, 125, 10,
  32, 32, 32, 32, 32, 32, 32, 32, 125, 44, 10, 32, 32, 32, 32, 32, 32, 32, 32, 34, 112, 97, 116, 116, 101, 114, 110,
  80, 114, 111, 112, 101, 114, 116, 105, 101, 115, 34, 58, 32, 123, 10, 32, 32, 32, 32, 32, 32, 32, 32, 32, 32, 32, 32,
  34, 116, 121, 112, 101, 34, 58, 32, 34, 111, 98, 106, 101, 99, 116, 34, 44, 10, 32, 32, 32, 32, 32, 32, 32, 32, 32,
  32, 32, 32, 34, 97, 100, 100, 105, 116, 105, 111, 110, 97, 108, 80, 114, 111, 112, 101, 114, 116, 105, 101, 115, 34,
  58, 32, 123, 32, 34, 36, 114, 101, 102, 34, 58, 32, 34, 35, 34, 32, 125, 44, 10]

/-- Lines 113-120 of src/json-schema-v4.json, the bytes of src/json-schema-v4.cc 6-370. -/
def metaLines15 : Bytes := [
  32, 32, 32, 32, 32, 32, 32, 32, 32, 32, 32, 32, 34, 100, 101, 102, 97, 117, 108, 116, 34, 58, 32, 123, 125, 10, 32,
  32, 32, 32, 32, 32, 32, 32, 125, 44, 10, 32, 32, 32, 32, 32, 32, 32, 32, 34, 100, 101, 112, 101, 110, 100, 101, 110,
  99, 105, 101, 115, 34, 58, 32, 123, 10, 32, 32, 32, 32, 32, 32, 32, 32, 32, 32, 32, 32, 34, 116, 121, 112, 101, 34,
  58, 32, 34, 111, 98, 106, 101, 99, 116, 34, 44, 10, 32, 32, 32, 32, 32, 32, 32, 32, 32, 32, 32, 32, 34, 97, 100, 100,
  105, 116, 105, 111, 110, 97, 108, 80, 114, 111, 112, 101, 114, 116, 105, 101, 115, 34, 58, 32, 123, 10, 32, 32, 32,
  32, 32, 32, 32, 32, 32, 32, 32, 32, 32, 32, 32, 32, 34, 97, 110, 121, 79, 102, 34, 58, 32, 91, 10, 32, 32, 32, 32,
  32, 32, 32, 32, 32, 32, 32, 32, 32, 32, 32, 32, 32, 32, 32, 32, 123, 32, 34, 36, 114, 101, 102, 34, 58, 32, 34, 35,
  34, 32, 125, 44, 10, 32, 32, 32, 32, 32, 32, 32, 32, 32, 32, 32, 32, 32, 32, 32, 32, 32, 32, 32, 32, 123, 32, 34, 36,
  114, 101, 102, 34, 58, 32, 34, 35, 47, 100, 101, 102, 105, 110, 105, 116, 105, 111, 110, 115, 47, 115, 116, 114, 105,
  110, 103, 65, 114, 114, 97, 121, 34, 32, 125, 10]

/-- Lines 121-128 of src/json-schema-v4.json, the bytes of src/json-schema-v4.cc 6-370. -/
def metaLines16 : Bytes := [
  32, 32, 32, 32, 32, 32, 32, 32, 32, 32, 32, 32, 32, 32, 32, 32, 93, 10, 32, 32, 32, 32, 32, 32, 32, 32, 32, 32, 32,
  32, 125, 10, 32, 32, 32, 32, 32, 32, 32, 32, 125, 44, 10, 32, 32, 32, 32, 32, 32, 32, 32, 34, 101, 110, 117, 109, 34,
  58, 32, 123, 10, 32, 32, 32, 32, 32, 32, 32, 32, 32, 32, 32, 32, 34, 116, 121, 112, 101, 34, 58, 32, 34, 97, 114,
  114, 97, 121, 34, 44, 10, 32, 32, 32, 32, 32, 32, 32, 32, 32, 32, 32, 32, 34, 109, 105, 110, 73, 116, 101, 109, 115,
  34, 58, 32, 49, 44, 10, 32, 32, 32, 32, 32, 32, 32, 32, 32, 32, 32, 32, 34, 117, 110, 105, 113, 117, 101, 73, 116,
  101, 109, 115, 34, 58, 32, 116, 114, 117, 101, 10, 32, 32, 32, 32, 32, 32, 32, 32, 125, 44, 10]

/-- Lines 129-136 of src/json-schema-v4.json, the bytes of src/json-schema-v4.cc 6-370. -/
def metaLines17 : Bytes := [
  32, 32, 32, 32, 32, 32, 32, 32, 34, 116, 121, 112, 101, 34, 58, 32, 123, 10, 32, 32, 32, 32, 32, 32, 32, 32, 32, 32,
  32, 32, 34, 97, 110, 121, 79, 102, 34, 58, 32, 91, 10, 32, 32, 32, 32, 32, 32, 32, 32, 32, 32, 32, 32, 32, 32, 32,
  32, 123, 32, 34, 36, 114, 101, 102, 34, 58, 32, 34, 35, 47, 100, 101, 102, 105, 110, 105, 116, 105, 111, 110, 115,
  47, 115, 105, 109, 112, 108, 101, 84, 121, 112, 101, 115, 34, 32, 125, 44, 10, 32, 32, 32, 32, 32, 32, 32, 32, 32,
  32, 32, 32, 32, 32, 32, 32, 123, 10, 32, 32, 32, 32, 32, 32, 32, 32, 32, 32, 32, 32, 32, 32, 32, 32, 32, 32, 32, 32,
  34, 116, 121, 112, 101, 34, 58, 32, 34, 97, 114, 114, 97, 121, 34, 44, 10, 32, 32, 32, 32, 32, 32, 32, 32, 32, 32,
  32, 32, 32, 32, 32, 32, 32, 32, 32, 32, 34, 105, 116, 101, 109, 115, 34, 58, 32, 123, 32, 34, 36, 114, 101, 102, 34,
  58, 32, 34, 35, 47, 100, 101, 102, 105, 110, 105, 116, 105, 111, 110, 115, 47, 115, 105, 109, 112, 108, 101, 84, 121,
  112, 101, 115, 34, 32, 125, 44, 10, 32, 32, 32, 32, 32, 32, 32, 32, 32, 32, 32, 32, 32, 32, 32, 32, 32, 32, 32, 32,
  34, 109, 105, 110, 73, 116, 101, 109, 115, 34, 58, 32, 49, 44, 10, 32, 32, 32, 32, 32, 32, 32, 32, 32, 32, 32, 32,
  32, 32, 32, 32, 32, 32, 32, 32, 34, 117, 110, 105, 113, 117, 101, 73, 116, 101, 109, 115, 34, 58, 32, 116, 114, 117,
  101, 10]

/-- Lines 137-144 of src/json-schema-v4.json, the bytes of src/json-schema-v4.cc 6-370. -/
def metaLines18 : Bytes := [
  32, 32, 32, 32, 32, 32, 32, 32, 32, 32, 32, 32, 32, 32, 32, 32, 125, 10, 32, 32, 32, 32, 32, 32, 32, 32, 32, 32, 32,
  32, 93, 10, 32, 32, 32, 32, 32, 32, 32, 32, 125, 44, 10, 32, 32, 32, 32, 32, 32, 32, 32, 34, 97, 108, 108, 79, 102,
  34, 58, 32, 123, 32, 34, 36, 114, 101, 102, 34, 58, 32, 34, 35, 47, 100, 101, 102, 105, 110, 105, 116, 105, 111, 110,
  115, 47, 115, 99, 104, 101, 109, 97, 65, 114, 114, 97, 121, 34, 32, 125, 44, 10, 32, 32, 32, 32, 32, 32, 32, 32, 34,
  97, 110, 121, 79, 102, 34, 58, 32, 123, 32, 34, 36, 114, 101, 102, 34, 58, 32, 34, 35, 47, 100, 101, 102, 105, 110,
  105, 116, 105, 111, 110, 115, 47, 115, 99, 104, 101, 109, 97, 65, 114, 114, 97, 121, 34, 32, 125, 44, 10, 32, 32, 32,
  32, 32, 32, 32, 32, 34, 111, 110, 101, 79, 102, 34, 58, 32, 123, 32, 34, 36, 114, 101, 102, 34, 58, 32, 34, 35, 47,
  100, 101, 102, 105, 110, 105, 116, 105, 111, 110, 115, 47, 115, 99, 104, 101, 109, 97, 65, 114, 114, 97, 121, 34, 32,
  125, 44, 10, 32, 32, 32, 32, 32, 32, 32, 32, 34, 110, 111, 116, 34, 58, 32, 123, 32, 34, 36, 114, 101, 102, 34, 58,
  32, 34, 35, 34, 32, 125, 10, 32, 32, 32, 32, 125, 44, 10]

/-- Lines 145-151 of src/json-schema-v4.json, the bytes of src/json-schema-v4.cc 6-370. -/
def metaLines19 : Bytes := [
  32, 32, 32, 32, 34, 100, 101, 112, 101, 110, 100, 101, 110, 99, 105, 101, 115, 34, 58, 32, 123, 10, 32, 32, 32, 32,
  32, 32, 32, 32, 34, 101, 120, 99, 108, 117, 115, 105, 118, 101, 77, 97, 120, 105, 109, 117, 109, 34, 58, 32, 91, 32,
  34, 109, 97, 120, 105, 109, 117, 109, 34, 32, 93, 44, 10, 32, 32, 32, 32, 32, 32, 32, 32, 34, 101, 120, 99, 108, 117,
  115, 105, 118, 101, 77, 105, 110, 105, 109, 117, 109, 34, 58, 32, 91, 32, 34, 109, 105, 110, 105, 109, 117, 109, 34,
  32, 93, 10, 32, 32, 32, 32, 125, 44, 10, 32, 32, 32, 32, 34, 100, 101, 102, 97, 117, 108, 116, 34, 58, 32, 123, 125,
  10, 125, 10]

/-- `JSON_SCHEMA_V4_SCHEMA` without its final NUL (src/json-schema-v4.cc 5-371). -/
def metaText : Bytes :=
  metaLines1 ++ metaLines2 ++ metaLines3 ++ metaLines4 ++ metaLines5 ++ metaLines6 ++ metaLines7 ++ metaLines8 ++
  metaLines9 ++ metaLines10 ++ metaLines11 ++ metaLines12 ++ metaLines13 ++ metaLines14 ++ metaLines15 ++ metaLines16 ++
  metaLines17 ++ metaLines18 ++ metaLines19

end Verif.Schema
