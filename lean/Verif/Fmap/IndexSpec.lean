import Verif.Fmap.Store
/-
What it means that the per-period index describes the stored records.
-/
namespace Sis.Fmap

variable {α : Type}

/-- The periods (days or years) of the records, in order. -/
def periods (T : Table α) (l : List α) : List Int := l.map fun r => T.sign (T.ts r)

/-- The index entries are in order of period, each counts the records of its period, a period marked as removed has no
records, and every record's period has an entry. -/
structure IndexDescribes (fs : List Fidx) (ps : List Int) : Prop where
  ordered : fs.Pairwise fun a b => a.isign < b.isign
  counts : ∀ f ∈ fs, f.count = (ps.count f.isign : Int)
  removed : ∀ f ∈ fs, f.moved = true → f.count = 0
  covered : ∀ p ∈ ps, ∃ f ∈ fs, f.isign = p

end Sis.Fmap
