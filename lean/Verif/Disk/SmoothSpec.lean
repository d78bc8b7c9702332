import Verif.Disk.Log
/-! Files that are read in pieces of 16 MB. -/
namespace Sis.Disk

/-- No piece of 16 MB ends inside the size field of a block, behind the first four bytes of the block: `file` is a sequence of
blocks, each a byte, the size of its content and its content. -/
def Smooth (file : Bytes) : Prop :=
  ∀ (before : List (UInt8 × Bytes)) (b : UInt8 × Bytes) (rest : Bytes),
    file = (before.flatMap fun x => encRec x.1 x.2) ++ encRec b.1 b.2 ++ rest → (∀ x ∈ before ++ [b], x.2.length < 2 ^ 64) →
    ∀ n, (before.flatMap fun x => encRec x.1 x.2).length + 4 ≤ n * (16 * 1024 * 1024) →
      (before.flatMap fun x => encRec x.1 x.2).length + 1 + (catSsize b.2.length).length ≤ n * (16 * 1024 * 1024)

/-- A file that can be read: under 2 GB, and no piece of 16 MB ends inside a size field. -/
structure Readable (file : Bytes) : Prop where
  len : file.length + 48 < 2 ^ 31
  cut : Smooth file

end Sis.Disk
