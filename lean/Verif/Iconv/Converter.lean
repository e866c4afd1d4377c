import Verif.Iconv.Model
import Verif.Numconv.Text

/-!
Model of `common/encoding_converter.cpp`: the names of encodings, `convert` and `convert_` (not the detection of the
encoding by `uchardet`).
-/
namespace Verif.Iconv
open Verif

/-- An encoding that is modelled. -/
inductive Encoding
  | one (t : OneByte)
  | utf8
  | ucs2
  | utf7

/-- Its functions. -/
def Encoding.codec : Encoding → Codec
  | .one t => t.codec
  | .utf8 => Iconv.utf8
  | .ucs2 => Iconv.ucs2
  | .utf7 => Iconv.utf7

/-- `tiniconv_charset_map`, tiniconv_desc.c 76-118.  Numbers 6, 9-13, 37 and 38 (windows-1255, windows-1258 and encodings
for Chinese and Japanese) are not modelled. -/
def charsetMap : Nat → Option Encoding
  | 0 => some (.one ascii_)
  | 1 => some (.one cp1250)
  | 2 => some (.one cp1251)
  | 3 => some (.one cp1252)
  | 4 => some (.one cp1253)
  | 5 => some (.one cp1254)
  | 7 => some (.one cp1256)
  | 8 => some (.one cp1257)
  | 14 => some (.one iso8859_1)
  | 15 => some (.one iso8859_2)
  | 16 => some (.one iso8859_3)
  | 17 => some (.one iso8859_4)
  | 18 => some (.one iso8859_5)
  | 19 => some (.one iso8859_6)
  | 20 => some (.one iso8859_7)
  | 21 => some (.one iso8859_8)
  | 22 => some (.one iso8859_9)
  | 23 => some (.one iso8859_10)
  | 24 => some (.one iso8859_11)
  | 25 => some (.one iso8859_13)
  | 26 => some (.one iso8859_14)
  | 27 => some (.one iso8859_15)
  | 28 => some (.one iso8859_16)
  | 29 => some (.one cp866)
  | 30 => some (.one koi8_r)
  | 31 => some (.one koi8_ru)
  | 32 => some (.one koi8_u)
  | 33 => some (.one mac_cyrillic)
  | 34 => some .ucs2
  | 35 => some .utf7
  | 36 => some .utf8
  | _ => none

/-- `EncodingConverter::ASCII`, encoding_converter.cpp 10. -/
def asciiName : Str := b!"ascii/unknown"

/-- `EncodingConverter::CHARSET_CODES`, encoding_converter.cpp 16-56. -/
def charsetCodes : List (Str × Nat) :=
  [(asciiName, 0), (b!"windows-1250", 1), (b!"windows-1251", 2), (b!"windows-1252", 3), (b!"windows-1253", 4), (b!"windows-1254", 5),
    (b!"windows-1255", 6), (b!"windows-1256", 7), (b!"windows-1257", 8), (b!"windows-1258", 9), (b!"CP939", 10), (b!"HZ-GB-2312", 11), (b!"GBK", 12),
    (b!"ISO-2020-JP", 13), (b!"ISO-8859-1", 14), (b!"ISO-8859-2", 15), (b!"ISO-8859-3", 16), (b!"ISO-8859-4", 17), (b!"ISO-8859-5", 18),
    (b!"ISO-8859-6", 19), (b!"ISO-8859-7", 20), (b!"ISO-8859-8", 21), (b!"ISO-8859-9", 22), (b!"ISO-8859-10", 23), (b!"ISO-8859-11", 24),
    (b!"ISO-8859-13", 25), (b!"ISO-8859-14", 26), (b!"ISO-8859-15", 27), (b!"ISO-8859-16", 28), (b!"CP866", 29), (b!"KOI8-R", 30), (b!"KOI8-RU", 31),
    (b!"KOI8-U", 32), (b!"x-max-cyrillic", 33), (b!"UCS-2", 34), (b!"UTF-7", 35), (b!"UTF-8", 36), (b!"GB-2312", 37), (b!"Big5", 38)]

/-- `CHARSET_CODES.count(name)` and `CHARSET_CODES[name]`. -/
def codeOf (name : Str) : Option Nat := (charsetCodes.find? (fun p => p.1 == name)).map (·.2)

/-- A string read as a C string: up to the first zero. -/
def cString (s : Str) : Str := s.takeWhile (fun b => b != 0)

/-- `EncodingConverter::BUFFER_SIZE`, encoding_converter.cpp 75. -/
def bufferSize : Nat := 100000

/-- `EncodingConverter::convert_`, encoding_converter.cpp 136-171: `some none` is false, `none` is `abort()`. -/
def convert_ (i o : Encoding) (input : Str) : Option (Option Str) :=
  let r := convert i.codec o.codec (options 0) (cString input) (bufferSize - 1)
  match r.code with
  | .inIlseq => some none
  | .outIlseq => some none
  | .abort => none
  | _ => some (some (cString r.out))

/-- `EncodingConverter::convert(from, to, text)`, encoding_converter.cpp 111-134, of a converter with the target
encoding `target`; `none` if one of the encodings is not modelled. -/
def converter (target src dst text : Str) : Option Str :=
  match codeOf src, codeOf dst with
  | some a, some b =>
    if src = asciiName ∨ src = dst ∨ src = target then some text
    else match charsetMap a, charsetMap b with
      | some i, some o => (convert_ i o text).map (fun r => r.getD text)
      | _, _ => none
  | _, _ => some text

end Verif.Iconv
