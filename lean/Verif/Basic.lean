/-
Shared vocabulary: bytes and C++ strings.

A C++ `std::string` is modelled as a list of bytes.  `char` is modelled by `UInt8`
(the toolkit never relies on the sign of `char` except where a model says so).
-/
namespace Verif

/-- One `char` of a C++ string. -/
abbrev Byte := UInt8

/-- A C++ `std::string`. -/
abbrev Str := List Byte

namespace B
/-! ASCII constants used in character switches. -/
@[simp, match_pattern] abbrev nul : Byte := 0
@[simp, match_pattern] abbrev tab : Byte := 9
@[simp, match_pattern] abbrev nl : Byte := 10
@[simp, match_pattern] abbrev cr : Byte := 13
@[simp, match_pattern] abbrev space : Byte := 32
@[simp, match_pattern] abbrev dquote : Byte := 34
@[simp, match_pattern] abbrev hash : Byte := 35
@[simp, match_pattern] abbrev percent : Byte := 37
@[simp, match_pattern] abbrev star : Byte := 42
@[simp, match_pattern] abbrev plus : Byte := 43
@[simp, match_pattern] abbrev comma : Byte := 44
@[simp, match_pattern] abbrev minus : Byte := 45
@[simp, match_pattern] abbrev dot : Byte := 46
@[simp, match_pattern] abbrev slash : Byte := 47
@[simp, match_pattern] abbrev semicolon : Byte := 59
@[simp, match_pattern] abbrev quest : Byte := 63
@[simp, match_pattern] abbrev backslash : Byte := 92
@[simp, match_pattern] abbrev underscore : Byte := 95
@[simp, match_pattern] abbrev n : Byte := 110
@[simp, match_pattern] abbrev r : Byte := 114
@[simp, match_pattern] abbrev t : Byte := 116
end B

end Verif
