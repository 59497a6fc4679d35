import Verif.Spec.UcdApi

/-!
# Independent specification: the properties of a codepoint, according to all data files together
-/

namespace Verif.Spec.Ucd
open Verif.Spec.UcdFile

/-- DerivedCoreProperties.txt gives `c` the Indic conjunct break `v` (a line `… ; InCB; v`). -/
def AssignsInCB (es : List Entry) (c : Nat) (v : List Char) : Prop :=
  ∃ e ∈ es, e.1 ≤ c ∧ c ≤ e.2.1 ∧ TwoPart e.2.2 "InCB".toList v

/-- The sections of PropertyValueAliases.txt, as pairs (abbreviation, name), the properties table depends on. -/
structure ValueNames where
  gc : List (List Char × List Char)
  eaw : List (List Char × List Char)
  age : List (List Char × List Char)
  gcb : List (List Char × List Char)
  incb : List (List Char × List Char)
  wb : List (List Char × List Char)

/-- What is required of the contents of the files (the Unicode Character Database satisfies it). -/
structure Complete (U : Contents) (N : ValueNames) : Prop where
  /-- no two sections for the same property -/
  titles : (U.aliases.map (·.1)).Nodup
  gcIn : ("General_Category".toList, N.gc) ∈ U.aliases
  eawIn : ("East_Asian_Width".toList, N.eaw) ∈ U.aliases
  ageIn : ("Age".toList, N.age) ∈ U.aliases
  gcbIn : ("Grapheme_Cluster_Break".toList, N.gcb) ∈ U.aliases
  incbIn : ("Indic_Conjunct_Break".toList, N.incb) ∈ U.aliases
  wbIn : ("Word_Break".toList, N.wb) ∈ U.aliases
  /-- the aliases -/
  gcOk : ∀ a f f', (a, f) ∈ N.gc → (a, f') ∈ N.gc → f = f'
  gcFew : N.gc.length ≤ 255
  gcReserved : ∀ a, (a, "Unspecified".toList) ∉ N.gc
  eawOk : GoodAliases N.eaw none
  ageOk : GoodAliases N.age (some "Unassigned".toList)
  ageVersions : ∀ a f, (a, f) ∈ N.age → f = "Unassigned".toList ∨ ∃ m n, VersionName f m n
  gcbOk : GoodAliases N.gcb (some "Undefined".toList)
  incbOk : GoodAliases N.incb none
  wbOk : GoodAliases N.wb none
  /-- values that must exist -/
  eawNeeds : ∀ f ∈ ["Narrow", "Wide", "Fullwidth"], Names N.eaw f.toList f.toList
  gcbNeeds : ∀ f ∈ ["Other", "Regional_Indicator"], Names N.gcb f.toList f.toList
  incbNeeds : Names N.incb "None".toList "None".toList
  wbNeeds : Names N.wb "Other".toList "Other".toList
  gcNeeds : ∃ e ∈ allOf U.gc, (e.2.2, "Unassigned".toList) ∈ N.gc
  /-- values are words -/
  words : ∀ e, e ∈ U.scripts ∨ e ∈ U.isc ∨ e ∈ U.eaw ∨ e ∈ U.hst ∨ e ∈ U.ages ∨ e ∈ U.emoji ∨ e ∈ allOf U.gc ∨
    e ∈ allOf U.gcb ∨ e ∈ allOf U.wb → Word e.2.2
  coreWords : ∀ e ∈ U.core, Word e.2.2 ∨ ∃ n v, TwoPart e.2.2 n v
  /-- values are known -/
  gcKnown : ∀ e ∈ allOf U.gc, ∃ f, (e.2.2, f) ∈ N.gc
  eawKnown : ∀ e ∈ U.eaw, ∃ f, Names N.eaw e.2.2 f
  ageKnown : ∀ e ∈ U.ages, ∃ f, (e.2.2, f) ∈ N.age
  gcbKnown : ∀ e ∈ allOf U.gcb, ∃ f, Names N.gcb e.2.2 f
  incbKnown : ∀ c v, AssignsInCB U.core c v → ∃ f, Names N.incb v f
  wbKnown : ∀ e ∈ allOf U.wb, ∃ f, Names N.wb e.2.2 f
  /-- no codepoint has two values -/
  scriptsOne : Consistent U.scripts
  gcOne : Consistent (allOf U.gc)
  eawOne : Consistent U.eaw
  agesOne : Consistent U.ages
  gcbOne : Consistent (allOf U.gcb)
  incbOne : ∀ c v w, AssignsInCB U.core c v → AssignsInCB U.core c w → v = w
  wbOne : Consistent (allOf U.wb)
  /-- script numbers fit a byte -/
  scriptsFew : ∀ names : List (List Char), names.Nodup → (∀ n ∈ names, ∃ e ∈ U.scripts, e.2.2 = n) → names.length ≤ 253

/-- `struct codepoint_properties` with the names of the enumerators. -/
structure Row where
  width : Nat
  flags : Nat
  flags2 : Nat
  script : List Char
  gcb : List Char
  eaw : List Char
  gc : List Char
  esc : List Char
  age : List Char
  incb : List Char
  wb : List Char

/-- `r` is what the files say about codepoint `c`. -/
structure Row.Says (U : Contents) (N : ValueNames) (c : Nat) (r : Row) : Prop where
  script : ValueOf U.scripts "Unknown".toList c r.script
  gc : (∃ ab, Assigns (allOf U.gc) c ab ∧ (ab, r.gc) ∈ N.gc) ∨ (∀ w, ¬ Assigns (allOf U.gc) c w) ∧ r.gc = "Unassigned".toList
  eaw : NamedValueOf U.eaw N.eaw "Narrow".toList c r.eaw
  age : NamedValueOf U.ages N.age "Unassigned".toList c r.age
  gcb : NamedValueOf (allOf U.gcb) N.gcb "Other".toList c r.gcb
  wb : NamedValueOf (allOf U.wb) N.wb "Other".toList c r.wb
  incb : (∃ v, AssignsInCB U.core c v ∧ Names N.incb v r.incb) ∨ (∀ v, ¬ AssignsInCB U.core c v) ∧ r.incb = "None".toList
  emoji : r.flags.testBit 0 = true ↔ Assigns U.emoji c "Emoji".toList
  presentation : r.flags.testBit 1 = true ↔ Assigns U.emoji c "Emoji_Presentation".toList
  component : r.flags.testBit 2 = true ↔ Assigns U.emoji c "Emoji_Component".toList
  modifier : r.flags.testBit 3 = true ↔ Assigns U.emoji c "Emoji_Modifier".toList
  modifierBase : r.flags.testBit 4 = true ↔ Assigns U.emoji c "Emoji_Modifier_Base".toList
  pictographic : r.flags.testBit 5 = true ↔ Assigns U.emoji c "Extended_Pictographic".toList
  graphemeExtend : r.flags.testBit 6 = true ↔ Assigns U.core c "Grapheme_Extend".toList
  virama : r.flags.testBit 7 = true ↔ Assigns U.isc c "Virama".toList ∨ Assigns U.isc c "Invisible_Stacker".toList
  byte : r.flags < 256
  variationBase : r.flags2 = if c ∈ U.evs then 1 else 0
  width : r.width =
    if Assigns U.hst c "V".toList ∨ Assigns U.hst c "T".toList then 0
    else if c = 0xAD then 1
    else if r.gc = "Format".toList ∧ Assigns (allOf U.gcb) c "Prepend".toList then 1
    else if r.gc ∈ zeroWidthCategories.map String.toList then 0
    else if Assigns U.emoji c "Emoji_Presentation".toList then 2
    else if r.eaw = "Wide".toList ∨ r.eaw = "Fullwidth".toList then 2
    else 1
  esc : r.esc =
    if c = 0x20E3 then "CombiningEnclosingKeyCap".toList
    else if c = 0x20E0 then "CombiningEnclosingCircleBackslash".toList
    else if c = 0x200D then "ZWJ".toList
    else if c = 0xFE0E then "VS15".toList
    else if c = 0xFE0F then "VS16".toList
    else if c = 0x1F3F4 then "TagBase".toList
    else if (0xE0030 ≤ c ∧ c ≤ 0xE0039) ∨ (0xE0061 ≤ c ∧ c ≤ 0xE007A) then "TagSequence".toList
    else if c = 0xE007F then "TagTerm".toList
    else if Assigns U.emoji c "Emoji_Modifier_Base".toList then "EmojiModifierBase".toList
    else if Assigns U.emoji c "Emoji_Modifier".toList then "EmojiModifier".toList
    else if r.gcb = "Regional_Indicator".toList then "RegionalIndicator".toList
    else if (0x30 ≤ c ∧ c ≤ 0x39) ∨ c = 0x23 ∨ c = 0x2A then "KeyCapBase".toList
    else if Assigns U.emoji c "Emoji_Presentation".toList then "EmojiEmojiPresentation".toList
    else if Assigns U.emoji c "Emoji".toList then "EmojiTextPresentation".toList
    else "Invalid".toList

end Verif.Spec.Ucd
