import Verif.Model.Csv

/-! The tables other programs write: independent grammar of CSV texts. -/

namespace Scheme

/-- A cell and its content: as it is, or within quotation marks, those inside doubled. -/
inductive CellSpelled : Str → Str → Prop
  | bare {s} : (∀ c ∈ s, c ≠ ',' ∧ c ≠ '\r' ∧ c ≠ '\n' ∧ c ≠ Char.ofNat 0) → s.head? ≠ some '"' → s.length ≤ 131072 →
      CellSpelled s s
  | quoted {s} : (∀ c ∈ s, c ≠ '\r' ∧ c ≠ Char.ofNat 0) → s.length ≤ 131072 →
      CellSpelled ('"' :: (s.flatMap (fun c => if c = '"' then ['"', '"'] else [c]) ++ ['"'])) s

/-- Texts and contents, one by one. -/
inductive CellsSpelled : List Str → List Str → Prop
  | one {t s} : CellSpelled t s → CellsSpelled [t] [s]
  | more {t s ts ss} : CellSpelled t s → CellsSpelled ts ss → CellsSpelled (t :: ts) (s :: ss)

/-- A line, which is not blank, and the contents of its cells. -/
def RowSpelled (t : Str) (cells : List Str) : Prop := t ≠ [] ∧ ∃ ts, CellsSpelled ts cells ∧ t = joinStr c!"," ts

/-- Lines and what they hold, one by one. -/
inductive RowsSpelled : List Str → List (List Str) → Prop
  | one {t r} : RowSpelled t r → RowsSpelled [t] [r]
  | more {t r ts rs} : RowSpelled t r → RowsSpelled ts rs → RowsSpelled (t :: ts) (r :: rs)

/-- A table: lines ending in CR LF, with any carriage returns and line feeds around them all. -/
def TableSpelled (t : Str) (rows : List (List Str)) : Prop :=
  ∃ a b ts, t = a ++ joinStr c!"\r\n" ts ++ b ∧ (∀ c ∈ a, c = '\r' ∨ c = '\n') ∧ (∀ c ∈ b, c = '\r' ∨ c = '\n') ∧
    RowsSpelled ts rows

end Scheme
