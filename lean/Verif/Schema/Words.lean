import Verif.Base.Outcome
/-!
# The words of JSON schemas (string literals of src/Schema.cc)
-/

namespace Verif.Schema

/-- "$ref" (src/Schema.cc 815) -/
def kRef : Bytes := [36, 114, 101, 102]
/-- "type" (src/Schema.cc 755) -/
def kType : Bytes := [116, 121, 112, 101]
/-- "enum" (src/Schema.cc 738) -/
def kEnum : Bytes := [101, 110, 117, 109]
/-- "multipleOf" (src/Schema.cc 693) -/
def kMultipleOf : Bytes := [109, 117, 108, 116, 105, 112, 108, 101, 79, 102]
/-- "divisibleBy" (src/Schema.cc 695) -/
def kDivisibleBy : Bytes := [100, 105, 118, 105, 115, 105, 98, 108, 101, 66, 121]
/-- "minimum" (src/Schema.cc 645) -/
def kMinimum : Bytes := [109, 105, 110, 105, 109, 117, 109]
/-- "maximum" (src/Schema.cc 667) -/
def kMaximum : Bytes := [109, 97, 120, 105, 109, 117, 109]
/-- "exclusiveMinimum" (src/Schema.cc 654) -/
def kExclusiveMinimum : Bytes := [101, 120, 99, 108, 117, 115, 105, 118, 101, 77, 105, 110, 105, 109, 117, 109]
/-- "exclusiveMaximum" (src/Schema.cc 676) -/
def kExclusiveMaximum : Bytes := [101, 120, 99, 108, 117, 115, 105, 118, 101, 77, 97, 120, 105, 109, 117, 109]
/-- "minLength" (src/Schema.cc 607) -/
def kMinLength : Bytes := [109, 105, 110, 76, 101, 110, 103, 116, 104]
/-- "maxLength" (src/Schema.cc 621) -/
def kMaxLength : Bytes := [109, 97, 120, 76, 101, 110, 103, 116, 104]
/-- "pattern" (src/Schema.cc 573) -/
def kPattern : Bytes := [112, 97, 116, 116, 101, 114, 110]
/-- "format" (src/Schema.cc 503) -/
def kFormat : Bytes := [102, 111, 114, 109, 97, 116]
/-- "minItems" (src/Schema.cc 467) -/
def kMinItems : Bytes := [109, 105, 110, 73, 116, 101, 109, 115]
/-- "maxItems" (src/Schema.cc 480) -/
def kMaxItems : Bytes := [109, 97, 120, 73, 116, 101, 109, 115]
/-- "uniqueItems" (src/Schema.cc 447) -/
def kUniqueItems : Bytes := [117, 110, 105, 113, 117, 101, 73, 116, 101, 109, 115]
/-- "items" (src/Schema.cc 413) -/
def kItems : Bytes := [105, 116, 101, 109, 115]
/-- "additionalItems" (src/Schema.cc 425) -/
def kAdditionalItems : Bytes := [97, 100, 100, 105, 116, 105, 111, 110, 97, 108, 73, 116, 101, 109, 115]
/-- "minProperties" (src/Schema.cc 376) -/
def kMinProperties : Bytes := [109, 105, 110, 80, 114, 111, 112, 101, 114, 116, 105, 101, 115]
/-- "maxProperties" (src/Schema.cc 389) -/
def kMaxProperties : Bytes := [109, 97, 120, 80, 114, 111, 112, 101, 114, 116, 105, 101, 115]
/-- "required" (src/Schema.cc 348) -/
def kRequired : Bytes := [114, 101, 113, 117, 105, 114, 101, 100]
/-- "properties" (src/Schema.cc 305) -/
def kProperties : Bytes := [112, 114, 111, 112, 101, 114, 116, 105, 101, 115]
/-- "patternProperties" (src/Schema.cc 284) -/
def kPatternProperties : Bytes := [112, 97, 116, 116, 101, 114, 110, 80, 114, 111, 112, 101, 114, 116, 105, 101, 115]
/-- "additionalProperties" (src/Schema.cc 333) -/
def kAdditionalProperties : Bytes := [97, 100, 100, 105, 116, 105, 111, 110, 97, 108, 80, 114, 111, 112, 101, 114, 116, 105, 101, 115]
/-- "dependencies" (src/Schema.cc 220) -/
def kDependencies : Bytes := [100, 101, 112, 101, 110, 100, 101, 110, 99, 105, 101, 115]
/-- "allOf" (src/Schema.cc 189) -/
def kAllOf : Bytes := [97, 108, 108, 79, 102]
/-- "anyOf" (src/Schema.cc 165) -/
def kAnyOf : Bytes := [97, 110, 121, 79, 102]
/-- "oneOf" (src/Schema.cc 129) -/
def kOneOf : Bytes := [111, 110, 101, 79, 102]
/-- "not" (src/Schema.cc 116) -/
def kNot : Bytes := [110, 111, 116]
/-- "default" (src/Schema.cc 858) -/
def kDefault : Bytes := [100, 101, 102, 97, 117, 108, 116]
/-- "$schema" (src/Schema.cc 829) -/
def kSchema : Bytes := [36, 115, 99, 104, 101, 109, 97]
/-- "array" (src/Schema.cc 513-531, 769-784) -/
def wArray : Bytes := [97, 114, 114, 97, 121]
/-- "boolean" (src/Schema.cc 513-531, 769-784) -/
def wBoolean : Bytes := [98, 111, 111, 108, 101, 97, 110]
/-- "integer" (src/Schema.cc 513-531, 769-784) -/
def wInteger : Bytes := [105, 110, 116, 101, 103, 101, 114]
/-- "null" (src/Schema.cc 513-531, 769-784) -/
def wNull : Bytes := [110, 117, 108, 108]
/-- "number" (src/Schema.cc 513-531, 769-784) -/
def wNumber : Bytes := [110, 117, 109, 98, 101, 114]
/-- "object" (src/Schema.cc 513-531, 769-784) -/
def wObject : Bytes := [111, 98, 106, 101, 99, 116]
/-- "string" (src/Schema.cc 513-531, 769-784) -/
def wString : Bytes := [115, 116, 114, 105, 110, 103]
/-- "regex" (src/Schema.cc 513-531, 769-784) -/
def wRegex : Bytes := [114, 101, 103, 101, 120]
/-- "date-time" (src/Schema.cc 513-531, 769-784) -/
def wDateTime : Bytes := [100, 97, 116, 101, 45, 116, 105, 109, 101]
/-- "date" (src/Schema.cc 513-531, 769-784) -/
def wDate : Bytes := [100, 97, 116, 101]
/-- "time" (src/Schema.cc 513-531, 769-784) -/
def wTime : Bytes := [116, 105, 109, 101]
/-- The expression for format "DateTime" (src/Schema.cc 521-531). -/
def reDateTime : Bytes := [94, 91, 48, 45, 57, 93, 91, 48, 45, 57, 93, 91, 48, 45, 57, 93, 91, 48, 45, 57, 93, 40, 45, 91, 48, 45, 49, 93, 91, 48, 45, 57, 93, 40, 45, 91, 48, 45, 51, 93, 91, 48, 45, 57, 93, 40, 84, 91, 48, 45, 57, 93, 91, 48, 45, 57, 93, 40, 58, 91, 48, 45, 57, 93, 91, 48, 45, 57, 93, 40, 58, 91, 48, 45, 57, 93, 91, 48, 45, 57, 93, 41, 63, 41, 63, 41, 63, 41, 63, 41, 63, 90, 63, 36]
/-- The expression for format "Date" (src/Schema.cc 521-531). -/
def reDate : Bytes := [94, 91, 48, 45, 57, 93, 91, 48, 45, 57, 93, 91, 48, 45, 57, 93, 91, 48, 45, 57, 93, 45, 91, 48, 45, 49, 93, 91, 48, 45, 57, 93, 45, 91, 48, 45, 51, 93, 91, 48, 45, 57, 93, 36]
/-- The expression for format "Time" (src/Schema.cc 521-531). -/
def reTime : Bytes := [94, 91, 48, 45, 50, 93, 91, 48, 45, 57, 93, 58, 91, 48, 45, 53, 93, 91, 48, 45, 57, 93, 58, 91, 48, 45, 53, 93, 91, 48, 45, 57, 93, 36]

end Verif.Schema
