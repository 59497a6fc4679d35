import Verif.Model.TgLoad
/-!
# What the record builder gets from the parser
-/

namespace Verif.Tg

/-- `findPva`: multistage_generator.cpp:336-343. -/
def findPva (D : Db) (key : Str) : List (Str × Str) := (amFind D.aliases key).getD []

/-- The accessors of `UcdParser` (ucd_parser.h:96-150) as used by `generateMultistageFiles`: multistage_generator.cpp:331-618. -/
def inputOf (D : Db) : Input where
  scripts := D.scripts
  core := D.core
  isc := D.isc
  bases := D.evs
  ages := D.ages
  gcats := D.gcats
  gcbs := D.gcb
  incbs := D.incb
  wbs := D.wb
  eaws := D.eaw
  emoji := D.emoji
  hst := D.hst
  pvaEaw := findPva D "East_Asian_Width".toList
  pvaAge := findPva D "Age".toList
  pvaGcb := findPva D "Grapheme_Cluster_Break".toList
  pvaIncb := findPva D "Indic_Conjunct_Break".toList
  pvaWb := findPva D "Word_Break".toList

end Verif.Tg
