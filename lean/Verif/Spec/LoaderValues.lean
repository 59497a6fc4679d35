import Verif.Spec.UcdLoader
/-!
# The values the run-time loader knows

Which values of the data files have an enumerator for the loader, and which: the scripts of Unicode 15.1, all ages up to 17.0, all general categories, all
grapheme breaks (with those of old releases) and all East Asian widths.
-/

namespace Verif.Spec.Ucd
open Verif.Spec.UcdFile

/-- Scripts; the enumerator has the same name. -/
def knownScripts : List String :=
  ["Adlam", "Ahom", "Anatolian_Hieroglyphs", "Arabic", "Armenian", "Avestan", "Balinese", "Bamum", "Bassa_Vah", "Batak", "Bengali",
   "Bhaiksuki", "Bopomofo", "Brahmi", "Braille", "Buginese", "Buhid", "Canadian_Aboriginal", "Carian", "Caucasian_Albanian", "Chakma", "Cham",
   "Cherokee", "Chorasmian", "Common", "Coptic", "Cuneiform", "Cypriot", "Cypro_Minoan", "Cyrillic", "Deseret", "Devanagari", "Dives_Akuru",
   "Dogra", "Duployan", "Egyptian_Hieroglyphs", "Elbasan", "Elymaic", "Ethiopic", "Georgian", "Glagolitic", "Gothic", "Grantha", "Greek",
   "Gujarati", "Gunjala_Gondi", "Gurmukhi", "Han", "Hangul", "Hanifi_Rohingya", "Hanunoo", "Hatran", "Hebrew", "Hiragana", "Imperial_Aramaic",
   "Inherited", "Inscriptional_Pahlavi", "Inscriptional_Parthian", "Javanese", "Kaithi", "Kannada", "Katakana", "Kawi", "Kayah_Li",
   "Kharoshthi", "Khitan_Small_Script", "Khmer", "Khojki", "Khudawadi", "Lao", "Latin", "Lepcha", "Limbu", "Linear_A", "Linear_B", "Lisu",
   "Lycian", "Lydian", "Mahajani", "Makasar", "Malayalam", "Mandaic", "Manichaean", "Marchen", "Masaram_Gondi", "Medefaidrin", "Meetei_Mayek",
   "Mende_Kikakui", "Meroitic_Cursive", "Meroitic_Hieroglyphs", "Miao", "Modi", "Mongolian", "Mro", "Multani", "Myanmar", "Nabataean",
   "Nag_Mundari", "Nandinagari", "New_Tai_Lue", "Newa", "Nko", "Nushu", "Nyiakeng_Puachue_Hmong", "Ogham", "Ol_Chiki", "Old_Hungarian",
   "Old_Italic", "Old_North_Arabian", "Old_Permic", "Old_Persian", "Old_Sogdian", "Old_South_Arabian", "Old_Turkic", "Old_Uyghur", "Oriya",
   "Osage", "Osmanya", "Pahawh_Hmong", "Palmyrene", "Pau_Cin_Hau", "Phags_Pa", "Phoenician", "Psalter_Pahlavi", "Rejang", "Runic",
   "Samaritan", "Saurashtra", "Sharada", "Shavian", "Siddham", "SignWriting", "Sinhala", "Sogdian", "Sora_Sompeng", "Soyombo", "Sundanese",
   "Syloti_Nagri", "Syriac", "Tagalog", "Tagbanwa", "Tai_Le", "Tai_Tham", "Tai_Viet", "Takri", "Tamil", "Tangsa", "Tangut", "Telugu",
   "Thaana", "Thai", "Tibetan", "Tifinagh", "Tirhuta", "Toto", "Ugaritic", "Vai", "Vithkuqi", "Wancho", "Warang_Citi", "Yezidi", "Yi",
   "Zanabazar_Square"]

/-- Ages; the enumerator of `5.1` is `V5_1`. -/
def knownAges : List String :=
  ["1.1", "2.0", "2.1", "3.0", "3.1", "3.2", "4.0", "4.1", "5.0", "5.1", "5.2", "6.0", "6.1", "6.2", "6.3", "7.0", "8.0", "9.0", "10.0",
   "11.0", "12.0", "12.1", "13.0", "14.0", "15.0", "16.0", "17.0"]

def ageName (v : List Char) : List Char := 'V' :: v.map fun c => if c = '.' then '_' else c

/-- General categories and their long names (UAX #44, table 12). -/
def knownCategories : List (String × String) :=
  [("Lu", "Uppercase_Letter"), ("Ll", "Lowercase_Letter"), ("Lt", "Titlecase_Letter"), ("Lm", "Modifier_Letter"), ("Lo", "Other_Letter"),
   ("Mn", "Nonspacing_Mark"), ("Mc", "Spacing_Mark"), ("Me", "Enclosing_Mark"), ("Nd", "Decimal_Number"), ("Nl", "Letter_Number"),
   ("No", "Other_Number"), ("Pc", "Connector_Punctuation"), ("Pd", "Dash_Punctuation"), ("Ps", "Open_Punctuation"),
   ("Pe", "Close_Punctuation"), ("Pi", "Initial_Punctuation"), ("Pf", "Final_Punctuation"), ("Po", "Other_Punctuation"),
   ("Sm", "Math_Symbol"), ("Sc", "Currency_Symbol"), ("Sk", "Modifier_Symbol"), ("So", "Other_Symbol"), ("Zs", "Space_Separator"),
   ("Zl", "Line_Separator"), ("Zp", "Paragraph_Separator"), ("Cc", "Control"), ("Cf", "Format"), ("Cs", "Surrogate"), ("Co", "Private_Use"),
   ("Cn", "Unassigned")]

/-- Grapheme breaks (UAX #29, and the classes older releases had); the enumerator has the same name. -/
def knownBreaks : List String :=
  ["CR", "Control", "E_Base", "E_Base_GAZ", "E_Modifier", "Extend", "Glue_After_Zwj", "L", "LF", "LV", "LVT", "Other", "Prepend",
   "Regional_Indicator", "SpacingMark", "T", "Undefined", "V", "ZWJ"]

/-- East Asian widths and their long names (UAX #11). -/
def knownWidths : List (String × String) :=
  [("A", "Ambiguous"), ("F", "Fullwidth"), ("H", "Halfwidth"), ("N", "Neutral"), ("Na", "Narrow"), ("W", "Wide")]

/-- `v` is one of these values. -/
def Value (vs : List String) (v : List Char) : Prop := ∃ s ∈ vs, s.toList = v

/-- `v` has the long name `f`. -/
def Long (vs : List (String × String)) (v f : List Char) : Prop := ∃ e ∈ vs, e.1.toList = v ∧ e.2.toList = f

/-- The loader knows all values of the files, and calls them as the release does. -/
structure LoaderKnows (U : Contents) (N : ValueNames) : Prop where
  scripts : ∀ e ∈ U.scripts, Value knownScripts e.2.2
  ages : ∀ e ∈ U.ages, Value knownAges e.2.2 ∧ Names N.age e.2.2 (ageName e.2.2)
  gc : ∀ e ∈ allOf U.gc, ∃ f, Long knownCategories e.2.2 f ∧ (e.2.2, f) ∈ N.gc
  gcb : ∀ e ∈ allOf U.gcb, Value knownBreaks e.2.2 ∧ Names N.gcb e.2.2 e.2.2
  eaw : ∀ e ∈ U.eaw, ∃ f, Long knownWidths e.2.2 f ∧ Names N.eaw e.2.2 f

end Verif.Spec.Ucd
