import Verif.Dict.ScanLemmas
import Verif.Dict.ScanSpec
/-
C124: going through a dictionary by a cursor tells every entry that is there at each call, while the dictionary is used, grows
and shrinks between the calls.
-/
namespace Sis.Dict

variable {K V : Type}

theorem opsOf_append (a b : List (Use K V)) : opsOf (a ++ b) = opsOf a ++ opsOf b := by
  induction a with
  | nil => rfl
  | cons u a ih => cases u <;> simp [opsOf, ih]

/-- What a history of use leads to. -/
structure Used (ty : Ty K) (us : List (Use K V)) (d : Dict K V) : Prop where
  reach : ∃ f, Reach ty (opsOf us) d f
  pows : Pows d

theorem use_used {ty : Ty K} (ok : ty.Ok) (us2 : List (Use K V)) : ∀ {us : List (Use K V)} {d : Dict K V}, Used ty us d →
    (given (opsOf (us ++ us2))).length < 2 ^ 61 → ∃ d', use ty d us2 = some d' ∧ Used ty (us ++ us2) d' := by
  induction us2 with
  | nil => intro us d h _; exact ⟨d, rfl, by simpa using h⟩
  | cons u us2 ih =>
    intro us d h hsz
    obtain ⟨f, hr⟩ := h.reach
    have hsz' : (given (opsOf us)).length < 2 ^ 61 := by
      rw [opsOf_append, given_append, List.length_append] at hsz; omega
    have hap : us ++ u :: us2 = us ++ [u] ++ us2 := by simp
    cases u with
    | op o =>
      obtain ⟨d', f', h3, h4⟩ := reach_step ok hr o hsz'
      have hu : Used ty (us ++ [.op o]) d' := ⟨⟨f ++ f', by rw [opsOf_append]; exact h4⟩, step_pow h.pows h3⟩
      obtain ⟨d2, h5, h6⟩ := ih hu (by rw [← hap]; exact hsz)
      exact ⟨d2, by rw [use, h3, Option.bind_some, h5], by rw [hap]; exact h6⟩
    | resize =>
      obtain ⟨r1, r2, r3⟩ := resize_inv hr.inv h.pows
      have hu : Used ty (us ++ [.resize]) (resize d).1 := by
        refine ⟨⟨f, ?_⟩, r3⟩
        rw [opsOf_append]
        simp only [opsOf, List.append_nil]
        exact ⟨r1, by rw [r2]; exact hr.agree, by rw [r2]; exact hr.freed⟩
      obtain ⟨d2, h5, h6⟩ := ih hu (by rw [← hap]; exact hsz)
      exact ⟨d2, by rw [use, h5], by rw [hap]; exact h6⟩

theorem used_new (ty : Ty K) : Used ty [] (create : Dict K V) :=
  ⟨⟨[], inv_create ty, (fun x v => ⟨(fun h => by cases h), (fun ⟨e, he, _⟩ => by cases he)⟩), List.Perm.refl _⟩, ⟨.inl rfl, .inl rfl⟩⟩

theorem scans_told {ty : Ty K} (ok : ty.Ok) (gs : List (List (Use K V))) : ∀ {us : List (Use K V)} {d : Dict K V} (v : BitVec 64), Used ty us d →
    (given (opsOf (us ++ gs.flatten))).length < 2 ^ 61 → ∃ d' v' ts, scans ty d v gs = some (d', v', ts) ∧ ts.length = gs.length ∧
      (∀ i l, ts[i]? = some l → ∀ e ∈ l, valueOf ty (us ++ (gs.take i).flatten) e.1 = some e.2) ∧
      ∀ k, (∀ i < gs.length, valueOf ty (us ++ (gs.take i).flatten) k ≠ none) → gs ≠ [] → pos v ≤ pos (hashAt ty k) → (v' = 0 ∨ pos (hashAt ty k) < pos v') →
        ∃ l ∈ ts, ∃ e ∈ l, ty.same k e.1 = true := by
  induction gs with
  | nil => intro us d v h _; exact ⟨d, v, [], rfl, rfl, by simp, fun k _ h => absurd rfl h⟩
  | cons g gs ih =>
    intro us d v h hsz
    obtain ⟨f, hr⟩ := h.reach
    obtain ⟨v1, l, s1, s2, s3⟩ := scan_spec hr.inv h.pows v
    have hsz' : (given (opsOf (us ++ g ++ gs.flatten))).length < 2 ^ 61 := by simpa using hsz
    obtain ⟨d1, u1, u2⟩ := use_used ok g h (by
      rw [opsOf_append, given_append, List.length_append] at hsz'; omega)
    obtain ⟨d', v', ts, i1, i2, i3, i4⟩ := ih v1 u2 hsz'
    refine ⟨d', v', l :: ts, by rw [scans, s1, Option.bind_some, u1, Option.bind_some, i1]; rfl, by simp [i2], ?_, ?_⟩
    · intro i m hm e he
      cases i with
      | zero =>
        cases hm
        simp only [List.take_zero, List.flatten_nil, List.append_nil]
        exact (hr.agree e.1 e.2).2 ⟨e, s2 e he, ok.refl _, rfl⟩
      | succ i =>
        have := i3 i m (by simpa using hm) e he
        simpa using this
    · intro k hk _ hv hv'
      by_cases hin : v1 = 0 ∨ pos (hashAt ty k) < pos v1
      · have h0 := hk 0 (by simp)
        simp only [List.take_zero, List.flatten_nil, List.append_nil] at h0
        cases ha : valueOf ty us k with
        | none => exact absurd ha h0
        | some w =>
          obtain ⟨e, he, hs, -⟩ := (hr.agree k w).1 ha
          have hh : hashAt ty e.1 = hashAt ty k := by unfold hashAt; rw [ok.hash _ _ hs]
          exact ⟨l, List.mem_cons_self, e, s3 e he (by rw [hh]; exact hv) (by rw [hh]; exact hin), hs⟩
      · have hlt : pos v1 ≤ pos (hashAt ty k) := by
          rcases Nat.lt_or_ge (pos (hashAt ty k)) (pos v1) with h | h
          · exact absurd (.inr h) hin
          · exact h
        have hne : gs ≠ [] := by
          intro hg
          subst hg
          cases i1
          exact hin hv'
        obtain ⟨m, hm, e, he, hs⟩ := i4 k (fun i hi => by
          have := hk (i + 1) (by simpa using hi)
          simpa using this) hne hlt hv'
        exact ⟨m, List.mem_cons_of_mem _ hm, e, he, hs⟩

/-- **C124**.  After every history of a dictionary, and whatever is done between the calls, sets, deletions, lookups, clears,
iterators opened and closed, and asking for the smallest table: calls that start with the cursor 0 and hand in each time the
cursor they got always return, tell only what the dictionary holds at the time of the call, and when the last of them returns
the cursor 0, every key that had a value at each call was told. -/
theorem C124_all_told {ty : Ty K} (ok : ty.Ok) (us : List (Use K V)) (gs : List (List (Use K V))) (hgs : gs ≠ [])
    (hsz : (given (opsOf (us ++ gs.flatten))).length < 2 ^ 61) :
    ∃ d, use ty create us = some d ∧ ∃ d' v ts, scans ty d 0 gs = some (d', v, ts) ∧
      (∀ i l, ts[i]? = some l → ∀ e ∈ l, valueOf ty (us ++ (gs.take i).flatten) e.1 = some e.2) ∧
      (v = 0 → ∀ k, (∀ i < gs.length, valueOf ty (us ++ (gs.take i).flatten) k ≠ none) → ∃ l ∈ ts, ∃ e ∈ l, ty.same k e.1 = true) := by
  obtain ⟨d, h1, h2⟩ := use_used ok us (used_new ty) (by
    rw [opsOf_append, given_append, List.length_append] at hsz; simp only [List.nil_append]; omega)
  obtain ⟨d', v, ts, h3, -, h4, h5⟩ := scans_told ok gs 0 h2 hsz
  refine ⟨d, h1, d', v, ts, h3, h4, fun hv k hk => h5 k hk hgs (by rw [zero_pos]; exact Nat.zero_le _) (.inl hv)⟩

theorem scans_still {ty : Ty K} {d : Dict K V} {k : Nat} (hk : k ≤ 63)
    (H : ∀ v, pos v % 2 ^ (64 - k) = 0 → ∃ v' l, scan d v = some (v', l) ∧ pos v' = (pos v / 2 ^ (64 - k) + 1) * 2 ^ (64 - k) % 2 ^ 64 ∧ l.Nodup ∧
      ∀ e, e ∈ l ↔ e ∈ ents d ∧ pos (hashAt ty e.1) / 2 ^ (64 - k) = pos v / 2 ^ (64 - k)) (n : Nat) :
    ∀ (j : Nat) (v : BitVec 64), j + n ≤ 2 ^ k → pos v = j * 2 ^ (64 - k) % 2 ^ 64 → j < 2 ^ k ∨ n = 0 →
      ∃ v' ts, scans ty d v (List.replicate n []) = some (d, v', ts) ∧ pos v' = (j + n) * 2 ^ (64 - k) % 2 ^ 64 ∧ ts.flatten.Nodup ∧
        ∀ e, e ∈ ts.flatten ↔ e ∈ ents d ∧ j ≤ pos (hashAt ty e.1) / 2 ^ (64 - k) ∧ pos (hashAt ty e.1) / 2 ^ (64 - k) < j + n := by
  have hy := Nat.two_pow_pos (64 - k)
  have h64 : 2 ^ 64 = 2 ^ k * 2 ^ (64 - k) := by rw [← Nat.pow_add]; congr 1; omega
  induction n with
  | zero =>
    intro j v _ hv _
    refine ⟨v, [], rfl, hv, List.nodup_nil, fun e => ?_⟩
    constructor
    · intro h; cases h
    · rintro ⟨-, h1, h2⟩; omega
  | succ n ih =>
    intro j v hj hv hlt
    have hj' : j < 2 ^ k := by omega
    have hsm : j * 2 ^ (64 - k) < 2 ^ 64 := by rw [h64]; exact Nat.mul_lt_mul_of_pos_right hj' hy
    rw [Nat.mod_eq_of_lt hsm] at hv
    obtain ⟨v1, l, s1, s2, s3, s4⟩ := H v (by rw [hv, Nat.mul_mod_left])
    rw [hv, Nat.mul_div_cancel _ hy] at s2 s4
    obtain ⟨v', ts, i1, i2, i3, i4⟩ := ih (j + 1) v1 (by omega) s2 (by omega)
    refine ⟨v', l :: ts, ?_, by rw [i2]; congr 2; omega, ?_, ?_⟩
    · rw [List.replicate_succ, scans, s1, Option.bind_some, use, Option.bind_some, i1]; rfl
    · rw [List.flatten_cons]
      refine List.nodup_append.2 ⟨s3, i3, ?_⟩
      rintro x hx y hy rfl
      have g1 := ((s4 x).1 hx).2
      have g2 := ((i4 x).1 hy).2.1
      omega
    · intro e
      rw [List.flatten_cons, List.mem_append, s4, i4]
      constructor
      · rintro (⟨h1, h2⟩ | ⟨h1, h2, h3⟩)
        · exact ⟨h1, by omega, by omega⟩
        · exact ⟨h1, by omega, by omega⟩
      · rintro ⟨h1, h2, h3⟩
        by_cases he : pos (hashAt ty e.1) / 2 ^ (64 - k) = j
        · exact .inl ⟨h1, he⟩
        · exact .inr ⟨h1, by omega, by omega⟩

/-- **C124**.  When nothing is done between the calls, the cursor 0 comes back after some number of calls and not before, and
every key that has a value was told once, with that value. -/
theorem C124_still_once {ty : Ty K} (ok : ty.Ok) (us : List (Use K V)) (hsz : (given (opsOf us)).length < 2 ^ 61) :
    ∃ d, use ty create us = some d ∧ ∃ n ts, scans ty d 0 (List.replicate (n + 1) []) = some (d, 0, ts) ∧
      (∀ j, 0 < j → j ≤ n → ∃ v ts, scans ty d 0 (List.replicate j []) = some (d, v, ts) ∧ v ≠ 0) ∧
      ts.flatten.Pairwise (fun a b => ty.same a.1 b.1 = false) ∧
      ∀ k v, valueOf ty us k = some v ↔ ∃ e ∈ ts.flatten, ty.same k e.1 = true ∧ e.2 = v := by
  obtain ⟨d, h1, h2⟩ := use_used ok us (used_new ty) (by simpa using hsz)
  simp only [List.nil_append] at h2
  obtain ⟨f, hr⟩ := h2.reach
  refine ⟨d, h1, ?_⟩
  by_cases hz : size d = 0
  · have he : ents d = [] := List.length_eq_zero_iff.1 (by rw [← size_eq hr.inv]; exact hz)
    refine ⟨0, [[]], ?_, fun j h h' => by omega, by simp, fun k v => ?_⟩
    · show scans ty d 0 [[]] = _
      rw [scans, scan, if_pos hz]; rfl
    · refine (hr.agree k v).trans ?_
      rw [he]; simp
  · obtain ⟨k, hk, H⟩ := scan_exact ok hr.inv h2.pows hz
    have hy := Nat.two_pow_pos (64 - k)
    have hp := Nat.two_pow_pos k
    have h64 : 2 ^ 64 = 2 ^ k * 2 ^ (64 - k) := by rw [← Nat.pow_add]; congr 1; omega
    have hz0 : pos 0 = 0 * 2 ^ (64 - k) % 2 ^ 64 := by rw [zero_pos]; simp
    obtain ⟨v', ts, i1, i2, i3, i4⟩ := scans_still (ty := ty) hk H (2 ^ k) 0 0 (by omega) hz0 (.inl hp)
    rw [Nat.zero_add, ← h64, Nat.mod_self] at i2
    have hperm : ts.flatten.Perm (ents d) := by
      rw [List.perm_ext_iff_of_nodup i3 (nodup_of_distinct ok hr.inv.uniq)]
      intro e
      rw [i4 e]
      refine ⟨fun h => h.1, fun h => ⟨h, Nat.zero_le _, ?_⟩⟩
      rw [Nat.zero_add]
      exact Nat.div_lt_of_lt_mul (by rw [Nat.mul_comm, ← h64]; exact pos_lt _)
    refine ⟨2 ^ k - 1, ts, ?_, ?_, Distinct.perm ok hperm.symm hr.inv.uniq, fun x w => ?_⟩
    · rw [Nat.sub_add_cancel hp, i1, pos_zero i2]
    · intro j hj hj'
      obtain ⟨v', ts, j1, j2, -, -⟩ := scans_still (ty := ty) hk H j 0 0 (by omega) hz0 (.inl hp)
      refine ⟨v', ts, j1, ?_⟩
      rintro rfl
      have hsm : j * 2 ^ (64 - k) < 2 ^ 64 := by rw [h64]; exact Nat.mul_lt_mul_of_pos_right (by omega) hy
      rw [Nat.zero_add, Nat.mod_eq_of_lt hsm, zero_pos] at j2
      have := Nat.mul_pos hj hy
      omega
    · exact hr.agree.perm hperm.symm x w

/-- Five keys, so that the table is growing when the first call is made; while the calls go on a key is removed, others are
added and the smallest table is asked for. -/
def scanStart : List (Use UInt64 Nat) := [.op (.set 1 10), .op (.set 2 20), .op (.set 3 30), .op (.set 4 40), .op (.set 5 50)]
def scanGaps : List (List (Use UInt64 Nat)) :=
  [[.op (.set 9 90), .op (.del 2)], [.op (.set 11 1), .op (.set 12 2), .op (.set 13 3)], [.op (.del 11), .op (.del 12), .op (.del 13), .resize], [], [], []]

example : intTy.Ok ∧ scanGaps ≠ [] ∧ (given (opsOf (scanStart ++ scanGaps.flatten))).length < 2 ^ 61 := ⟨intTy_ok, by simp [scanGaps], by decide⟩
example : ((use intTy create scanStart).map fun d => (d.ridx, d.h0.table.length, d.h1.table.length)) = some (some 0, 4, 8) := by decide +kernel

example : (((use intTy create scanStart).bind fun d => scans intTy d 0 scanGaps).map fun r => (r.2.1, r.2.2.flatten)) =
    some (0, [(4, 40), (1, 10), (9, 90), (5, 50), (3, 30)]) := by decide +kernel
example : (((use intTy create scanStart).bind fun d => scans intTy d 0 (List.replicate 4 [])).map fun r => (r.2.1, r.2.2.flatten)) =
    some (0, [(4, 40), (2, 20), (1, 10), (5, 50), (3, 30)]) := by decide +kernel

end Sis.Dict
