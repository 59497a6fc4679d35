import Verif.Model.Ucd
/-!
# Independent specification: UAX #29 word boundaries (WB3–WB16, WB999)
-/

namespace Verif.Spec.WBR
open Verif.Ucd

/-- `Extend | Format | ZWJ` -/
def Transparent (w : WB) : Prop := w = .Extend ∨ w = .Format ∨ w = .ZWJ
/-- `Newline | CR | LF` -/
def Newline (w : WB) : Prop := w = .Newline ∨ w = .CR ∨ w = .LF
def AHLetter (w : WB) : Prop := w = .ALetter ∨ w = .Hebrew_Letter
def MidNumLetQ (w : WB) : Prop := w = .MidNumLet ∨ w = .Single_Quote

instance : DecidablePred Transparent := fun w => by unfold Transparent; infer_instance
instance : DecidablePred Newline := fun w => by unfold Newline; infer_instance

/-- One step of WB4, `X (Extend | Format | ZWJ)* → X`: ignore a transparent class except after sot and after a
newline class.  `R` is what has been kept so far. -/
def keep (R : List WB) (w : WB) : List WB :=
  if Transparent w ∧ ∃ x ∈ R.getLast?, ¬ Newline x then R else R ++ [w]

/-- The classes that remain of a text after WB4. -/
def reduce (ws : List WB) : List WB := ws.foldl keep []

/-- The left context ends in a class satisfying `P` … -/
def Ends1 (R : List WB) (P : WB → Prop) : Prop := ∃ p x, R = p ++ [x] ∧ P x
/-- … in two classes satisfying `P` and `Q`. -/
def Ends2 (R : List WB) (P Q : WB → Prop) : Prop := ∃ p x y, R = p ++ [x, y] ∧ P x ∧ Q y
/-- The next class after WB4 (the boundary is followed by an ordinary character, then by `post`). -/
def Next (post : List WB) (P : WB → Prop) : Prop :=
  ∃ ts x r, post = ts ++ x :: r ∧ (∀ t ∈ ts, Transparent t) ∧ ¬ Transparent x ∧ P x

/-- WB5–WB16: `R` is the reduced left context, `b` the class after the position, `post` the classes after `b`. -/
def Join (R : List WB) (b : WB) (post : List WB) : Prop :=
  -- WB5  AHLetter × AHLetter
  (Ends1 R AHLetter ∧ AHLetter b) ∨
  -- WB6  AHLetter × (MidLetter | MidNumLetQ) AHLetter
  (Ends1 R AHLetter ∧ (b = .MidLetter ∨ MidNumLetQ b) ∧ Next post AHLetter) ∨
  -- WB7  AHLetter (MidLetter | MidNumLetQ) × AHLetter
  (Ends2 R AHLetter (fun m => m = .MidLetter ∨ MidNumLetQ m) ∧ AHLetter b) ∨
  -- WB7a Hebrew_Letter × Single_Quote
  (Ends1 R (· = .Hebrew_Letter) ∧ b = .Single_Quote) ∨
  -- WB7b Hebrew_Letter × Double_Quote Hebrew_Letter
  (Ends1 R (· = .Hebrew_Letter) ∧ b = .Double_Quote ∧ Next post (· = .Hebrew_Letter)) ∨
  -- WB7c Hebrew_Letter Double_Quote × Hebrew_Letter
  (Ends2 R (· = .Hebrew_Letter) (· = .Double_Quote) ∧ b = .Hebrew_Letter) ∨
  -- WB8  Numeric × Numeric
  (Ends1 R (· = .Numeric) ∧ b = .Numeric) ∨
  -- WB9  AHLetter × Numeric
  (Ends1 R AHLetter ∧ b = .Numeric) ∨
  -- WB10 Numeric × AHLetter
  (Ends1 R (· = .Numeric) ∧ AHLetter b) ∨
  -- WB11 Numeric (MidNum | MidNumLetQ) × Numeric
  (Ends2 R (· = .Numeric) (fun m => m = .MidNum ∨ MidNumLetQ m) ∧ b = .Numeric) ∨
  -- WB12 Numeric × (MidNum | MidNumLetQ) Numeric
  (Ends1 R (· = .Numeric) ∧ (b = .MidNum ∨ MidNumLetQ b) ∧ Next post (· = .Numeric)) ∨
  -- WB13 Katakana × Katakana
  (Ends1 R (· = .Katakana) ∧ b = .Katakana) ∨
  -- WB13a (AHLetter | Numeric | Katakana | ExtendNumLet) × ExtendNumLet
  (Ends1 R (fun a => AHLetter a ∨ a = .Numeric ∨ a = .Katakana ∨ a = .ExtendNumLet) ∧ b = .ExtendNumLet) ∨
  -- WB13b ExtendNumLet × (AHLetter | Numeric | Katakana)
  (Ends1 R (· = .ExtendNumLet) ∧ (AHLetter b ∨ b = .Numeric ∨ b = .Katakana)) ∨
  -- WB15/16 (sot | [^RI]) (RI RI)* RI × RI
  (b = .Regional_Indicator ∧ ∃ p ris, R = p ++ ris ∧ (∀ x ∈ ris, x = .Regional_Indicator) ∧
    ris.length % 2 = 1 ∧ ∀ q y, p = q ++ [y] → y ≠ .Regional_Indicator)

/-- Is there a word boundary between `pre ++ [a]` and `b :: post`? -/
def Boundary (U : Table) (pre : List Nat) (a b : Nat) (post : List Nat) : Prop :=
  let A := (U a).wb
  let B := (U b).wb
  -- WB3  CR × LF
  ¬ (A = .CR ∧ B = .LF) ∧
  -- WB3a, WB3b
  (Newline A ∨ Newline B ∨
    -- WB3c ZWJ × \p{Extended_Pictographic}
    ¬ ((A = .ZWJ ∧ (U b).isExtPict) ∨
    -- WB3d WSegSpace × WSegSpace
       (A = .WSegSpace ∧ B = .WSegSpace) ∨
    -- WB4
       Transparent B ∨
       Join (reduce ((pre ++ [a]).map fun c => (U c).wb)) B (post.map fun c => (U c).wb)))

/-- … with left context `l` (non-empty). -/
def BoundaryAt (U : Table) (l : List Nat) (b : Nat) (post : List Nat) : Prop :=
  ∃ p a, l = p ++ [a] ∧ Boundary U p a b post

end Verif.Spec.WBR
