/-!
# Independent specification: what the Unicode Character Database says about a codepoint

A data file is a list of entries `(first, last, value)`.  `PropertyValueAliases.txt` gives, per property, pairs
(abbreviation, full name).
-/

namespace Verif.Spec.Ucd

/-- The codepoints `first … last` have `value`. -/
abbrev Entry := Nat × Nat × List Char

/-- Some entry gives `cp` the value `v`. -/
def Assigns (es : List Entry) (cp : Nat) (v : List Char) : Prop := ∃ e ∈ es, e.1 ≤ cp ∧ cp ≤ e.2.1 ∧ e.2.2 = v

instance (es : List Entry) (cp : Nat) (v : List Char) : Decidable (Assigns es cp v) :=
  inferInstanceAs (Decidable (∃ e ∈ es, e.1 ≤ cp ∧ cp ≤ e.2.1 ∧ e.2.2 = v))

/-- No two entries give a codepoint different values. -/
def Consistent (es : List Entry) : Prop := ∀ cp v w, Assigns es cp v → Assigns es cp w → v = w

/-- All entries are about Unicode codepoints. -/
def InRange (es : List Entry) : Prop := ∀ e ∈ es, e.2.1 ≤ 0x10FFFF

/-- `v` is the value of `cp`: the one assigned, or the default if there is none. -/
def ValueOf (es : List Entry) (default : List Char) (cp : Nat) (v : List Char) : Prop :=
  Assigns es cp v ∨ (∀ w, ¬ Assigns es cp w) ∧ v = default

/-- The text `v` of a data file stands for the value with full name `f`. -/
def Names (aliases : List (List Char × List Char)) (v f : List Char) : Prop := (v, f) ∈ aliases ∨ (v = f ∧ ∃ a, (a, f) ∈ aliases)

/-- `f` is the full name of the value of `cp`. -/
def NamedValueOf (es : List Entry) (aliases : List (List Char × List Char)) (default : List Char) (cp : Nat) (f : List Char) : Prop :=
  (∃ v, Assigns es cp v ∧ Names aliases v f) ∨ (∀ w, ¬ Assigns es cp w) ∧ f = default

/-- Requirements on a section of `PropertyValueAliases.txt`, as the pairs (abbreviation, full name); `reserved` is an
extra enumerator that is not in the file. -/
structure GoodAliases (al : List (List Char × List Char)) (reserved : Option (List Char)) : Prop where
  /-- fits `uint8_t` -/
  small : al.length + 1 ≤ 256
  /-- it is a map -/
  func : ∀ a f f', (a, f) ∈ al → (a, f') ∈ al → f = f'
  /-- an abbreviation that is itself a full name abbreviates itself -/
  noCapture : ∀ a f, (a, f) ∈ al → (a ∈ al.map (·.2) ∨ reserved = some a) → a = f
  /-- proper abbreviations are shorter than what they abbreviate -/
  shorter : ∀ a f, (a, f) ∈ al → a = f ∨ a.length < f.length
  /-- full names are not empty -/
  nonempty : ∀ a f, (a, f) ∈ al → f ≠ []

/-- `s` is a numeral (one or more digits) for `n` in base 10. -/
inductive Numeral : List Char → Nat → Prop
  | one {c v} : "0123456789".toList[v]? = some c → Numeral [c] v
  | snoc {s n c v} : Numeral s n → "0123456789".toList[v]? = some c → Numeral (s ++ [c]) (n * 10 + v)

/-- `f` is the enumerator of version `m.n`: `V`*m*`_`*n*. -/
def VersionName (f : List Char) (m n : Nat) : Prop := ∃ s t, Numeral s m ∧ Numeral t n ∧ f = 'V' :: s ++ '_' :: t

/-- The general categories that take no column (UAX #44 names). -/
def zeroWidthCategories : List String :=
  ["Control", "Enclosing_Mark", "Format", "Line_Separator", "Nonspacing_Mark", "Paragraph_Separator", "Spacing_Mark",
   "Surrogate"]

end Verif.Spec.Ucd
