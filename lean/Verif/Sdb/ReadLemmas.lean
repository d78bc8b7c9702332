import Verif.Sdb.RefineHist
/- What the reader finds in files that hold some content. -/
namespace Sis.Sdb
open Sis Sis.Disk
open Sis.Dyn (sameN getN setN Db sameN_iff sameN_refl getN_none getN_some setN_spec getN_congr)

theorem read_view {lib : Lib} {P : Db → Prop} {d : Disk} {m : Ctl} {S : Store} (h : DiskOk lib P d m S) (u : Uid) {n : Bytes} (hn : IsData n) :
    (openRd lib d u = some none ∧ S u n = none) ∨ ∃ c, openRd lib d u = some (some c) ∧ view lib c n = S u n := by
  unfold openRd
  cases hu : d.unit u with
  | none => exact .inl ⟨rfl, h.files.none u hu (by simp) n hn⟩
  | some f =>
    obtain ⟨_, c, h1, _, h3⟩ := h.files.disk u f hu
    refine .inr ⟨c, by simp [h1], h3 (by simp) n hn⟩

theorem alone_units {lib : Lib} {P : Db → Prop} {d : Disk} {m : Ctl} {S : Store} (h : DiskOk lib P d m S) {k : Bytes} (hk : IsData k) :
    ∃ body us, aloneUnits lib d k = some (body, us) ∧ us.map (fun u => (u.start, u.stop, readSdb lib body u.offset u.size)) = (S .nots k).getD [] := by
  unfold aloneUnits
  rcases read_view h .nots hk with ⟨h1, h2⟩ | ⟨c, h1, h2⟩
  · rw [h1, h2]; exact ⟨_, _, rfl, rfl⟩
  · rw [h1]
    unfold view at h2
    cases hg : getN c.idx k with
    | none =>
      rw [hg] at h2
      refine ⟨c.body, [], by simp only [Option.map_some, hg], ?_⟩
      rw [← h2]; rfl
    | some nd =>
      rw [hg] at h2
      refine ⟨c.body, nd.units, by simp only [Option.map_some, hg], ?_⟩
      rw [← h2]; rfl

theorem single {lib : Lib} {body : Bytes} {us : List IUnit} {x : Nat × Nat × Option (Nat × Bytes)}
    (h : us.map (fun u => (u.start, u.stop, readSdb lib body u.offset u.size)) = [x]) : ∃ u, us = [u] ∧ readSdb lib body u.offset u.size = x.2.2 := by
  cases us with
  | nil => cases h
  | cons u us =>
    cases us with
    | nil => simp only [List.map_cons, List.map_nil, List.cons.injEq, and_true] at h; exact ⟨u, rfl, by rw [← h]⟩
    | cons _ _ => simp at h

theorem ones_eq {lib : Lib} {P : Db → Prop} {d : Disk} {m : Ctl} {S : Store} {a : Abs} (h : DiskOk lib P d m S) (r : Rel P a S m) {k : Bytes} (hk : KeyName k)
    (hlen : ∀ x, a.vals (fold k) = some (.one x) → x.length < 2 ^ 31) :
    getOne lib d k = some (match a.vals (fold k) with
      | some (.one x) => if x = [] then none else some x
      | _ => none) := by
  obtain ⟨body, us, h1, h2⟩ := alone_units h (isData_key (goodKey hk))
  unfold getOne
  rw [h1, Option.bind_some]
  rw [r.vals k hk.dot] at h2
  cases hv : a.vals (fold k) with
  | none =>
    rw [hv] at h2
    have : us = [] := by simpa using h2
    subst this
    rfl
  | some x =>
    rw [hv] at h2
    cases x with
    | one x =>
      obtain ⟨u, rfl, hu⟩ := single (x := (0, 0, some (hidOne, catSsize x.length ++ x))) h2
      have hx := hlen x hv
      have : catOnes lib body [u] = some x := by
        unfold catOnes
        simp only at hu
        rw [hu]
        simp only [Option.bind_some, if_true]
        rw [C01_ssize_roundtrip _ (by omega)]
        simp [catOnes]
      simp only [this, Option.map_some]
    | mul l =>
      obtain ⟨u, rfl, hu⟩ := single (x := (0, 0, some (hidMul, catSsize l.length ++ l.flatMap fun d => catSsize d.length ++ d))) h2
      have : catOnes lib body [u] = some [] := by
        unfold catOnes
        simp only at hu
        rw [hu]
        simp only [Option.bind_some]
        rw [if_neg (by decide)]
        simp [catOnes]
      simp only [this, Option.map_some, if_true]

theorem takeVals_eq (l : List Bytes) (h : ∀ d ∈ l, d.length < 2 ^ 31) : takeVals l.length (l.flatMap fun d => catSsize d.length ++ d) = some l := by
  induction l with
  | nil => rfl
  | cons d l ih =>
    have hd := h d (by simp)
    rw [List.length_cons, takeVals, List.flatMap_cons, List.append_assoc, C01_ssize_roundtrip _ (by omega)]
    simp only [Option.bind_some]
    rw [if_pos (by omega)]
    have : asCount d.length = d.length := by unfold asCount; rw [if_pos (by omega)]; omega
    rw [this, takeBytes_append]
    simp only [Option.bind_some]
    rw [ih (fun d hx => h d (by simp [hx]))]
    rfl

theorem muls_eq {lib : Lib} {P : Db → Prop} {d : Disk} {m : Ctl} {S : Store} {a : Abs} (h : DiskOk lib P d m S) (r : Rel P a S m) {k : Bytes} (hk : KeyName k)
    (hlen : ∀ l, a.vals (fold k) = some (.mul l) → l.length < 2 ^ 31 ∧ ∀ d ∈ l, d.length < 2 ^ 31) :
    getMul lib d k = some (match a.vals (fold k) with
      | some (.mul l) => if l = [] then none else some l
      | _ => none) := by
  obtain ⟨body, us, h1, h2⟩ := alone_units h (isData_key (goodKey hk))
  unfold getMul
  rw [h1, Option.bind_some]
  rw [r.vals k hk.dot] at h2
  cases hv : a.vals (fold k) with
  | none =>
    rw [hv] at h2
    have : us = [] := by simpa using h2
    subst this
    rfl
  | some x =>
    rw [hv] at h2
    cases x with
    | one x =>
      obtain ⟨u, rfl, hu⟩ := single (x := (0, 0, some (hidOne, catSsize x.length ++ x))) h2
      have : catMuls lib body [u] = some [] := by
        unfold catMuls
        simp only at hu
        rw [hu]
        simp only [Option.bind_some]
        rw [if_neg (by decide)]
        simp [catMuls]
      simp only [this, Option.map_some, if_true]
    | mul l =>
      obtain ⟨u, rfl, hu⟩ := single (x := (0, 0, some (hidMul, catSsize l.length ++ l.flatMap fun d => catSsize d.length ++ d))) h2
      obtain ⟨hl1, hl2⟩ := hlen l hv
      have : catMuls lib body [u] = some l := by
        unfold catMuls
        simp only at hu
        rw [hu]
        simp only [Option.bind_some, if_true]
        rw [C01_ssize_roundtrip _ (by omega)]
        have hc : asCount l.length = l.length := by unfold asCount; rw [if_pos (by omega)]; omega
        simp only [Option.bind_some, hc, takeVals_eq l hl2]
        simp [catMuls]
      simp only [this, Option.map_some]

theorem catRows_eq {lib : Lib} {body : Bytes} {u : Uid} (l : List (Nat × Nat × Bytes)) : ∀ us : List IUnit,
    us.map (fun u => (u.start, u.stop, readSdb lib body u.offset u.size)) = rowBlocks u l → catRows lib body us = some (allBytes l) := by
  induction l with
  | nil => intro us h; have : us = [] := by simpa [rowBlocks] using h
           subst this; rfl
  | cons b l ih =>
    intro us h
    cases us with
    | nil => cases h
    | cons x us =>
      simp only [rowBlocks, List.map_cons, List.cons.injEq, Prod.mk.injEq] at h
      rw [catRows, h.1.2.2]
      simp only [Option.bind_some]
      rw [ih us h.2]
      rfl

theorem short_eq {k s : Bytes} (hk : KeyName k) (hs : TabName s) : shortName k (some s) = nodeName k (some s) := by
  unfold shortName
  apply List.take_of_length_le
  have h1 := hk.len
  have h2 := hs.len
  simp only [nodeName, List.length_append, List.length_cons]
  omega

theorem rowsIn_eq {lib : Lib} {P : Db → Prop} {d : Disk} {m : Ctl} {S : Store} {a : Abs} (h : DiskOk lib P d m S) (r : Rel P a S m) {k s : Bytes} (hk : KeyName k) (hs : TabName s) (u : Uid) :
    rowsIn lib d k s u = some ((a.rows (fold k) (fold s) u).map allBytes) := by
  unfold rowsIn
  have hr := r.rows k s u hk.dot
  rcases read_view h u (isData_node k s) with ⟨h1, h2⟩ | ⟨c, h1, h2⟩
  · rw [h1, Option.bind_some]
    rw [h2] at hr
    cases ha : a.rows (fold k) (fold s) u with
    | none => rfl
    | some l => rw [ha] at hr; cases hr
  · rw [h1, Option.bind_some]
    rw [hr] at h2
    unfold view at h2
    simp only [short_eq hk hs]
    cases hg : getN c.idx (nodeName k (some s)) with
    | none =>
      rw [hg] at h2
      cases ha : a.rows (fold k) (fold s) u with
      | none => rfl
      | some l => rw [ha] at h2; cases h2
    | some nd =>
      rw [hg] at h2
      cases ha : a.rows (fold k) (fold s) u with
      | none => rw [ha] at h2; cases h2
      | some l =>
        rw [ha] at h2
        simp only [catRows_eq l nd.units (Option.some.inj h2), Option.map_some]

/-- A value that is shorter than 2 GB. -/
def Val.Short : Val → Prop
  | .one x => x.length < 2 ^ 31
  | .mul l => l.length < 2 ^ 31 ∧ ∀ d ∈ l, d.length < 2 ^ 31

theorem vals_acts {v : Time.Env} {P : Db → Prop} (as : List Act) : ∀ (a : Abs), (∀ n x, a.vals n = some x → x.Short) →
    (∀ (pre : List Act) (x : Act) (post : List Act), as = pre ++ x :: post → Allowed v P (a.acts v pre) x) →
    ∀ n x, (a.acts v as).vals n = some x → x.Short := by
  induction as with
  | nil => intro a h _; exact h
  | cons x as ih =>
    intro a h hok
    refine ih (a.act v x) ?_ (fun pre y post he => hok (x :: pre) y post (by rw [he]; rfl))
    have hx := hok [] x as rfl
    intro n y hy
    cases x with
    | keys ks => exact h n y hy
    | tabs ts => exact h n y hy
    | one k b =>
      simp only [Abs.act] at hy
      split at hy
      · cases hy; exact hx.2
      · exact h n y hy
    | mul k l =>
      simp only [Abs.act] at hy
      split at hy
      · cases hy; exact hx.2
      · exact h n y hy
    | rows k s b =>
      simp only [Abs.act] at hy
      split at hy <;> exact h n y hy

/-- Values are as short as they were when they were written. -/
theorem vals_short {lib : Lib} {v : Time.Env} {P : Db → Prop} {d : Disk} {a : Abs} (h : Hist lib v P d a) : ∀ n x, a.vals n = some x → x.Short := by
  induction h with
  | new => intro n x h; cases h
  | session h s ih => exact vals_acts _ _ ih s.ok

end Sis.Sdb
