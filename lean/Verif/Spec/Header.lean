import Verif.Model.Header

/-!
# Specification vocabulary for headers
-/

namespace Cloudini

/-- Text that survives a YAML line of its own: not empty, no newline, no '#', no white space at either end. -/
structure PlainText (s : List Byte) : Prop where
  nonempty : s ≠ []
  newline : 0x0A#8 ∉ s
  comment : 0x23#8 ∉ s
  first : ∀ c, s.head? = some c → isSpace c = false
  last : ∀ c, s.getLast? = some c → isSpace c = false

/-- Plain text that can be part of a NUL-terminated header. -/
structure HeaderText (s : List Byte) : Prop extends PlainText s where
  nul : 0#8 ∉ s

/-- The characters `std::ostream` uses to print a float: digits, signs, point, exponent, "inf", "nan". -/
structure FloatText.Lawful (T : FloatText) : Prop where
  nonempty : ∀ r, T.print r ≠ []
  chars : ∀ r, ∀ c ∈ T.print r, isDigit c = true ∨ c ∈ ascii "+-.einfa"
  parse_ub : ∀ s k, T.parse s ≠ .ub k

/-- An `EncodingOptions`, `CompressionOption` or `FieldType` object is determined by its byte. -/
def EncOpt.Canonical (o : EncOpt) : Prop := EncOpt.ofCode o.code = o
def CompOpt.Canonical (o : CompOpt) : Prop := CompOpt.ofCode o.code = o
def FieldType.Canonical (t : FieldType) : Prop := FieldType.ofCode t.code = t

/-- A representable info: enum objects determined by their byte (every C++ object is). -/
structure CanonicalInfo (info : EncodingInfo) : Prop where
  enc : info.encoding_opt.Canonical
  comp : info.compression_opt.Canonical
  types : ∀ f ∈ info.fields, f.type.Canonical

end Cloudini
