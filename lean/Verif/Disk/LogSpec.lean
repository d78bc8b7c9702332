import Verif.Disk.Log
/- What is expected of the message log, in terms of the bytes of the file. -/
namespace Sis.Disk

/-- Of the records written, exactly the first `k` lie completely within the first `n` bytes. -/
def CompleteCount (recs : List Bytes) (n k : Nat) : Prop :=
  k ≤ recs.length ∧ (encLog (recs.take k)).length ≤ n ∧ (k < recs.length → n < (encLog (recs.take (k + 1))).length)

/-- Byte position `n` lies inside the size field of a record: the head byte and at least `min - 1` bytes of the size field
come before, at least one byte of the size field comes after. -/
def InSizeField (min : Nat) (recs : List Bytes) (n : Nat) : Prop :=
  ∃ a r b, recs = a ++ r :: b ∧ (encLog a).length + min ≤ n ∧ n < (encLog a).length + 1 + (catSsize r.length).length

end Sis.Disk
