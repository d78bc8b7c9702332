import Verif.Sdb.SplitLemmas
/- The files of a database have the content they should have. -/
namespace Sis.Sdb
open Sis Sis.Disk
open Sis.Dyn (sameN getN setN Db sameN_iff sameN_refl getN_none getN_some setN_spec getN_congr)

/-- A block of records added, as the index sees it. -/
def addV (f : Dyn.Field) (mine : List Bytes) (old : Option Blocks) : Option Blocks :=
  match mine.head?, mine.getLast? with
  | some x, some y => some (keepV (timeOf f x) (timeOf f y) (old.getD []) ++ [(timeOf f x, timeOf f y, some (hidSdb, mine.flatten))])
  | _, _ => old

theorem addV_nil (f : Dyn.Field) (old : Option Blocks) : addV f [] old = old := rfl

def uidN (f : Dyn.Field) (p : Nat) : Uid := if f.style = .date then .year p else .date p

theorem uidN_inj (f : Dyn.Field) {p q : Nat} (h : uidN f p = uidN f q) : p = q := by
  unfold uidN at h
  split at h
  · exact Uid.year.inj h
  · exact Uid.date.inj h

theorem uidOf_eq (f : Dyn.Field) {p : Nat} (h : p < 2 ^ 31) : uidOf (decide (f.style = .date)) (p : Int) = uidN f p := by
  unfold uidOf uidN
  rw [u32_eq h]
  simp

theorem put_piece {db : Db} {f : Dyn.Field} (h : Timed db f) (n0 : Bytes) {p : Nat} (hp : p < 2 ^ 31) {xs : List Bytes} (hne : xs ≠ []) (hx : ∀ r ∈ xs, r.length = db.size)
    (hl : xs.flatten.length < 2 ^ 31) (S : Store) (ps : List (Int × Bytes)) :
    ∃ S1 : Store, putPieces db (decide (f.style = .date)) n0 S (piece (p, xs) :: ps) = putPieces db (decide (f.style = .date)) n0 S1 ps ∧
      ∀ u n, S1 u n = if sameN n n0 = true ∧ u = uidN f p then addV f xs (S u n) else S u n := by
  obtain ⟨x, hx1⟩ : ∃ x, xs.head? = some x := by cases xs with | nil => exact absurd rfl hne | cons a _ => exact ⟨a, rfl⟩
  obtain ⟨y, hy1⟩ : ∃ y, xs.getLast? = some y := by
    cases hc : xs.getLast? with
    | none => rw [List.getLast?_eq_none_iff] at hc; exact absurd hc hne
    | some y => exact ⟨y, rfl⟩
  refine ⟨putRows S (uidN f p) n0 (timeOf f x) (timeOf f y) xs.flatten, ?_, ?_⟩
  · rw [piece, putPieces, blockTimes_rec h hx hl hx1 hy1, uidOf_eq f hp]
  · intro u n
    unfold putRows put addV
    rw [hx1, hy1]
    by_cases hc : sameN n n0 = true ∧ u = uidN f p
    · rw [if_pos ⟨hc.2, hc.1⟩, if_pos hc]
    · rw [if_neg (fun hx => hc ⟨hx.2, hx.1⟩), if_neg hc]

theorem putPieces_runs {db : Db} {f : Dyn.Field} (h : Timed db f) (v : Time.Env) (n0 : Bytes) (rs : List Bytes) :
    ∀ (xs : List Bytes) (p : Nat) (S : Store), xs ≠ [] → (∀ r ∈ xs ++ rs, r.length = db.size ∧ perOf v f r < 2 ^ 31) → (xs ++ rs).flatten.length < 2 ^ 31 →
      (∀ x ∈ xs, perOf v f x = p) → ((xs ++ rs).Pairwise fun x y => perOf v f x ≤ perOf v f y) → ∀ u n,
      putPieces db (decide (f.style = .date)) n0 S ((runsFrom (perOf v f) p xs rs).map piece) u n =
        if sameN n n0 = true then addV f ((xs ++ rs).filter fun r => uidN f (perOf v f r) == u) (S u n) else S u n := by
  have hfil : ∀ (xs : List Bytes) (p : Nat) (u : Uid), (∀ x ∈ xs, perOf v f x = p) →
      (xs.filter fun r => uidN f (perOf v f r) == u) = if u = uidN f p then xs else [] := by
    intro xs p u hxp
    by_cases hu : u = uidN f p
    · rw [if_pos hu, List.filter_eq_self]
      intro r hr
      rw [hxp r hr, hu]; simp
    · rw [if_neg hu, List.filter_eq_nil_iff]
      intro r hr
      rw [hxp r hr]
      simpa using fun hx => hu hx.symm
  have hp31 : ∀ (xs : List Bytes) (p : Nat), xs ≠ [] → (∀ r ∈ xs, perOf v f r < 2 ^ 31) → (∀ x ∈ xs, perOf v f x = p) → p < 2 ^ 31 := by
    intro xs p hne h1 h2
    obtain ⟨a, ha⟩ := List.exists_mem_of_ne_nil xs hne
    have := h1 a ha
    rw [h2 a ha] at this
    exact this
  induction rs with
  | nil =>
    intro xs p S hne hlen hl hxp _ u n
    rw [List.append_nil] at hlen hl ⊢
    obtain ⟨S1, e1, e2⟩ := put_piece h n0 (hp31 xs p hne (fun r hr => (hlen r hr).2) hxp) hne (fun r hr => (hlen r hr).1) hl S []
    rw [runsFrom, List.map_singleton, e1, putPieces, e2, hfil xs p u hxp]
    by_cases hn : sameN n n0 = true
    · by_cases hu : u = uidN f p
      · rw [if_pos ⟨hn, hu⟩, if_pos hn, if_pos hu]
      · rw [if_neg (fun hx => hu hx.2), if_pos hn, if_neg hu, addV_nil]
    · rw [if_neg (fun hx => hn hx.1), if_neg hn]
  | cons r rs ih =>
    intro xs p S hne hlen hl hxp hord u n
    rw [runsFrom]
    by_cases hr : perOf v f r = p
    · rw [if_pos hr]
      have e : xs ++ r :: rs = (xs ++ [r]) ++ rs := by simp
      rw [e] at hlen hl hord ⊢
      refine ih (xs ++ [r]) p S (by simp) hlen hl ?_ hord u n
      intro x hx
      rcases List.mem_append.1 hx with hx | hx
      · exact hxp x hx
      · rw [List.mem_singleton.1 hx]; exact hr
    · rw [if_neg hr, List.map_cons]
      have hlx : xs.flatten.length < 2 ^ 31 := by
        rw [List.flatten_append, List.length_append] at hl; omega
      have hlr : (r :: rs).flatten.length < 2 ^ 31 := by
        rw [List.flatten_append, List.length_append] at hl; omega
      obtain ⟨S1, e1, e2⟩ := put_piece h n0 (hp31 xs p hne (fun x hx => (hlen x (by simp [hx])).2) hxp) hne (fun x hx => (hlen x (by simp [hx])).1) hlx S
        ((runsFrom (perOf v f) (perOf v f r) [r] rs).map piece)
      rw [e1]
      rw [List.pairwise_append] at hord
      obtain ⟨_, o2, o3⟩ := hord
      rw [ih [r] (perOf v f r) S1 (by simp) (fun x hx => hlen x (by simp at hx ⊢; exact .inr hx)) (by simpa using hlr) (by simp) (by simpa using o2) u n, e2]
      have hgt : ∀ x ∈ r :: rs, perOf v f x ≠ p := by
        obtain ⟨a, ha⟩ := List.exists_mem_of_ne_nil xs hne
        have h1 := o3 a ha r (by simp)
        rw [hxp a ha] at h1
        intro x hx
        rcases List.mem_cons.1 hx with rfl | hx
        · exact hr
        · have h2 := (List.pairwise_cons.1 o2).1 x hx
          omega
      by_cases hn : sameN n n0 = true
      · rw [if_pos hn, if_pos hn, show [r] ++ rs = r :: rs from rfl, List.filter_append, hfil xs p u hxp]
        by_cases hu : u = uidN f p
        · have hnil : ((r :: rs).filter fun x => uidN f (perOf v f x) == u) = [] := by
            rw [List.filter_eq_nil_iff]
            intro x hx
            have := hgt x hx
            rw [hu]
            simpa using fun he => this (uidN_inj f he)
          rw [if_pos ⟨hn, hu⟩, if_pos hu, hnil, List.append_nil, addV_nil]
        · rw [if_neg (fun hx => hu hx.2), if_neg hu, List.nil_append]
      · rw [if_neg hn, if_neg hn, if_neg (fun hx => hn hx.1)]

/-! ### Names -/

theorem fold_same {a b : Bytes} : sameN a b = true ↔ fold a = fold b := sameN_iff

theorem same_false {a b : Bytes} (h : fold a ≠ fold b) : sameN a b = false := by
  cases hs : sameN a b with
  | false => rfl
  | true => exact absurd (fold_same.1 hs) h

theorem trim_self {k : Bytes} (hf : ∀ c, k.head? = some c → 32 < c) (hl : ∀ c, k.getLast? = some c → 32 < c) : trim k = k := by
  have hd : ∀ l : Bytes, (∀ c, l.head? = some c → 32 < c) → l.dropWhile (· ≤ 32) = l := by
    intro l hl
    cases l with
    | nil => rfl
    | cons c l =>
      rw [List.dropWhile_cons, if_neg]
      have h1 := hl c rfl
      simpa using h1
  unfold trim
  rw [hd k.reverse (by rw [List.head?_reverse]; exact hl), List.reverse_reverse, hd k hf]

theorem goodKey {k : Bytes} (h : KeyName k) : GoodKey k where
  ne := h.ne
  comma := h.comma
  dot := h.dot
  trim := trim_self h.first h.last
  len := h.len
  keys := by
    apply same_false
    have : fold signKeys = "_keys_".toUTF8.toList := by decide +kernel
    rw [this]; exact fun hx => h.keys hx.symm
  tabs := by
    apply same_false
    have : fold signTabs = "_sdbs_".toUTF8.toList := by decide +kernel
    rw [this]; exact fun hx => h.tabs hx.symm

theorem goodTab {s : Bytes} (h : TabName s) : GoodTab s := ⟨h.ne, h.len, h.plain⟩

theorem join_eq (ks : List Bytes) : List.intercalate [44] ks = joinNames ks := by
  induction ks with
  | nil => rfl
  | cons k ks ih =>
    cases ks with
    | nil => simp [joinNames, List.intercalate]
    | cons a ks =>
      rw [joinNames, ← ih]
      · simp [List.intercalate, List.intersperse]
      · simp

theorem lower_dot : ∀ c : UInt8, lower c = 46 ↔ c = 46 := by
  have h : ∀ n : Fin 256, lower (UInt8.ofNat n.1) = 46 ↔ UInt8.ofNat n.1 = 46 := by decide +kernel
  intro c
  have := h ⟨c.toNat, c.toNat_lt⟩
  simpa using this

theorem fold_dot {k : Bytes} (h : (46 : UInt8) ∉ k) : (46 : UInt8) ∉ fold k := by
  intro hx
  obtain ⟨c, hc, he⟩ := List.mem_map.1 hx
  rw [(lower_dot c).1 he] at hc
  exact h hc

theorem split_dot {a a' b b' : Bytes} (ha : (46 : UInt8) ∉ a) (ha' : (46 : UInt8) ∉ a') (h : a ++ 46 :: b = a' ++ 46 :: b') : a = a' ∧ b = b' := by
  induction a generalizing a' with
  | nil =>
    cases a' with
    | nil => simp at h; exact ⟨rfl, h⟩
    | cons c a' =>
      simp only [List.nil_append, List.cons_append, List.cons.injEq] at h
      rw [← h.1] at ha'
      simp at ha'
  | cons c a ih =>
    cases a' with
    | nil =>
      simp only [List.nil_append, List.cons_append, List.cons.injEq] at h
      rw [h.1] at ha
      simp at ha
    | cons c' a' =>
      simp only [List.cons_append, List.cons.injEq] at h
      obtain ⟨h1, h2⟩ := ih (a' := a') (fun hx => ha (by simp [hx])) (fun hx => ha' (by simp [hx])) h.2
      exact ⟨by rw [h.1, h1], h2⟩

theorem fold_node (k s : Bytes) : fold (nodeName k (some s)) = fold k ++ 46 :: fold s := by
  simp [nodeName, fold]
  decide

theorem node_same {k k' s s' : Bytes} (hk : (46 : UInt8) ∉ k) (hk' : (46 : UInt8) ∉ k') :
    sameN (nodeName k (some s)) (nodeName k' (some s')) = true ↔ fold k = fold k' ∧ fold s = fold s' := by
  rw [fold_same, fold_node, fold_node]
  constructor
  · exact split_dot (fold_dot hk) (fold_dot hk')
  · rintro ⟨h1, h2⟩; rw [h1, h2]

theorem key_node {k k' s : Bytes} (hk : (46 : UInt8) ∉ k) : sameN k (nodeName k' (some s)) = false := by
  apply same_false
  rw [fold_node]
  intro h
  exact fold_dot hk (by rw [h]; simp)

theorem node_key {k k' s : Bytes} (hk : (46 : UInt8) ∉ k) : sameN (nodeName k' (some s)) k = false := by
  apply same_false
  rw [fold_node]
  intro h
  exact fold_dot hk (by rw [← h]; simp)

theorem isData_key {k : Bytes} (h : GoodKey k) : IsData k := ⟨h.keys, h.tabs⟩

theorem isData_node (k s : Bytes) : IsData (nodeName k (some s)) := by
  refine ⟨key_node (by decide +kernel), key_node (by decide +kernel)⟩

end Sis.Sdb
