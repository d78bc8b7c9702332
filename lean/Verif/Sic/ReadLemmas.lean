import Verif.Sic.SessionLemmas
import Verif.Server.SubLemmas
/- Lemmas on files of compressed records: what a subscriber hears. -/
namespace Sis.Sic
open Sis Sis.Disk Sis.Sdb
open Sis.Sno (Rec nth Heard star)
open Sis.Dyn (sameN getN setN Db getN_some sameN_refl)

/-! ### The decompressor -/

theorem makeZip_some {kd : List Bytes} : ∀ {ts : List (Bytes × Db)}, (ts.map fun t => t.2.size + 1).sum < 2 ^ 32 → ∃ z, makeZip kd (sdOf ts) = some z := by
  have key : ∀ (ts : List (Bytes × Db)) (z0 : Zip.Z), z0.sum + (ts.map fun t => t.2.size + 1).sum < 2 ^ 32 →
      ∃ z, (sdOf ts).foldlM (fun z t => t.2.getLast?.bind fun db => (Zip.setSdb z db).map (·.2)) z0 = some z := by
    intro ts
    induction ts with
    | nil => intro z0 _; exact ⟨z0, rfl⟩
    | cons t ts ih =>
      intro z0 h
      rw [List.map_cons, List.sum_cons] at h
      unfold sdOf
      rw [List.map_cons, List.foldlM_cons]
      simp only [List.getLast?_singleton, Option.bind_some, Zip.setSdb]
      rw [if_pos (by omega)]
      simp only [Option.map_some]
      exact ih _ (by simp only; omega)
  intro ts h
  exact key ts _ (by
    have : (Zip.setKey Zip.create kd.length).2.sum = 0 := rfl
    rw [this]; omega)

theorem unStart_dec {dbs : List Db} {k : Nat} {z : Zip.Z} (h : Zip.Ready dbs k z) (hst : z.status = 3) (hr : k * (dbs.map fun d => d.size + 1).sum < 2 ^ 32) (hk : k < 2 ^ 31)
    {junk : Bytes} (hj : junk.length = z.maxdb) : ∃ d, Zip.unStart z junk = some (0, d) ∧ Zip.Dec dbs k d := by
  have T := h.facts.1
  unfold Zip.unStart
  rw [if_neg (by rw [hst]; decide), if_neg (by rw [T.keys, T.sum]; omega)]
  exact ⟨_, rfl, T.same rfl rfl rfl rfl, rfl, by
    show (List.replicate _ _).length = _
    rw [List.length_replicate, T.keys, T.sum]
    rfl, hj⟩

/-! ### What is heard -/

/-- Records that are heard one behind the other. -/
def hearAll (quit : List Rec → Bool) (h : Heard) (rs : List Rec) : Heard := rs.foldl (fun h r => (h.1 ++ [r], h.2 || quit (h.1 ++ [r]))) h

/-- Whether it is known that the subscription was ended. -/
def Told (quit : List Rec → Bool) (h : Heard) : Prop := h.2 = true ↔ ∃ p, p <+: h.1 ∧ quit p = true

theorem hearAll_spec (quit : List Rec → Bool) (rs : List Rec) : ∀ h, Told quit h → (hearAll quit h rs).1 = h.1 ++ rs ∧ Told quit (hearAll quit h rs) := by
  induction rs with
  | nil => intro h t; exact ⟨by simp [hearAll], t⟩
  | cons r rs ih =>
    intro h t
    have t' : Told quit (h.1 ++ [r], h.2 || quit (h.1 ++ [r])) := by
      unfold Told at t ⊢
      simp only [Bool.or_eq_true]
      rw [t]
      constructor
      · rintro (⟨p, hp, hq⟩ | hq)
        · exact ⟨p, hp.trans (List.prefix_append _ _), hq⟩
        · exact ⟨_, List.prefix_refl _, hq⟩
      · rintro ⟨p, hp, hq⟩
        rcases List.prefix_concat_iff.1 hp with rfl | hp
        · exact .inr hq
        · exact .inl ⟨p, hp, hq⟩
    obtain ⟨h1, h2⟩ := ih _ t'
    exact ⟨by show (hearAll quit (h.1 ++ [r], h.2 || quit (h.1 ++ [r])) rs).1 = _; rw [h1]; simp, h2⟩

/-- Whether a record is handed on. -/
def asks (w : Want) (r : Rec) : Bool := w.whole || (Sub.half false r.key (some w.keys) && Sub.half false r.tab (some w.sdbs))

theorem nth_of {α : Type} {l : List α} {i : Nat} {a : α} (h : l[i]? = some a) (hl : l.length < 2 ^ 31) : nth l i = some a := by
  have := (List.getElem?_eq_some_iff.1 h).1
  unfold nth
  rw [Nat.mod_eq_of_lt (by omega), if_pos (by omega), h]

theorem hear_fold {keys : List Bytes} {tabs : List (Bytes × Db)} {w : Want} {quit : List Rec → Bool} (hk : keys.length < 2 ^ 31) (ht : tabs.length < 2 ^ 31) (rs : List Zip.Rec) :
    ∀ h, (∀ x ∈ rs, x.1 < keys.length ∧ x.2.1 < tabs.length) →
      rs.foldlM (hear keys (sdOf tabs) w quit) h = some (hearAll quit h ((rs.map (named keys tabs)).filter (asks w))) := by
  induction rs with
  | nil => intro h _; rfl
  | cons x rs ih =>
    intro h hr
    obtain ⟨h1, h2⟩ := hr x (by simp)
    have e1 := List.getElem?_eq_getElem h1
    have e2 := List.getElem?_eq_getElem h2
    have n1 := nth_of e1 hk
    have n2 : nth (sdOf tabs) x.2.1 = some (tabs[x.2.1].1, [tabs[x.2.1].2]) := nth_of (by unfold sdOf; rw [List.getElem?_map, e2]; rfl) (by unfold sdOf; rw [List.length_map]; exact ht)
    have hn : named keys tabs x = ⟨keys[x.1], tabs[x.2.1].1, x.2.2⟩ := by unfold named; rw [e1, e2]; rfl
    rw [List.foldlM_cons, hear, n1, n2]
    simp only
    rw [List.map_cons, hn]
    by_cases hw : asks w ⟨keys[x.1], tabs[x.2.1].1, x.2.2⟩ = true
    · have hw' := hw
      unfold asks at hw'
      simp only at hw'
      rw [if_pos hw', List.filter_cons_of_pos hw]
      exact ih _ fun y hy => hr y (by simp [hy])
    · have hw' := hw
      unfold asks at hw'
      simp only at hw'
      rw [if_neg hw', List.filter_cons_of_neg hw]
      exact ih _ fun y hy => hr y (by simp [hy])

theorem told_start (quit : List Rec → Bool) : Told quit ([], quit []) := by
  unfold Told
  constructor
  · intro h; exact ⟨[], List.prefix_refl _, h⟩
  · rintro ⟨p, hp, hq⟩
    rw [List.prefix_nil.1 hp] at hq
    exact hq

theorem hears_now {quit : List Rec → Bool} {h : Heard} {rest : List Rec} (t : Told quit h) (hd : h.2 = false ∨ h.1 = []) (hr : h.2 = false → rest = []) : Hears quit (h.1 ++ rest) h.1 h.2 := by
  refine ⟨List.prefix_append _ _, t, ?_, fun e => by rw [hr e, List.append_nil]⟩
  intro p hp hq
  have ht : h.2 = true := t.2 ⟨p, hp, hq⟩
  rcases hd with hd | hd
  · rw [hd] at ht; cases ht
  · rw [hd]; simp only [List.length_nil]; omega

theorem playBlocks_ok {keys : List Bytes} {tabs : List (Bytes × Db)} {w : Want} {quit : List Rec → Bool} (hk : keys.length < 2 ^ 31) (ht : tabs.length < 2 ^ 31)
    (bs : List (UInt8 × Bytes)) : ∀ {d d' : Zip.Z} {outs : List (List Zip.Rec)} {h : Heard}, Zip.Feeds d (sics bs) outs d' →
      (∀ o ∈ outs, o.length < 131072 ∧ ∀ x ∈ o, x.1 < keys.length ∧ x.2.1 < tabs.length) → Told quit h → (h.2 = false ∨ h.1 = []) →
      ∃ got broke, playBlocks keys (sdOf tabs) w quit d h bs = some (got, broke) ∧ Hears quit (h.1 ++ ((outs.flatten.map (named keys tabs)).filter (asks w))) got broke := by
  induction bs with
  | nil =>
    intro d d' outs h hf _ t hd
    cases hf
    exact ⟨h.1, h.2, rfl, hears_now t hd fun _ => rfl⟩
  | cons b bs ih =>
    intro d d' outs h hf ho t hd
    by_cases hb : hidOf b.1 = hidSic
    · have hs : sics (b :: bs) = b.2 :: sics bs := by
        unfold sics
        rw [List.filter_cons_of_pos (by simpa using hb)]
        rfl
      rw [hs] at hf
      cases hf with
      | @cons _ d1 _ _ _ n o outs h1 h2 =>
        obtain ⟨ho1, ho2⟩ := ho o (by simp)
        obtain ⟨g1, g2⟩ := hearAll_spec quit ((o.map (named keys tabs)).filter (asks w)) h t
        have hlen : ((o.map (named keys tabs)).filter (asks w)).length < 131072 := by
          have := List.length_filter_le (asks w) (o.map (named keys tabs))
          rw [List.length_map] at this
          omega
        generalize hh : hearAll quit h ((o.map (named keys tabs)).filter (asks w)) = h' at g1 g2
        have hplay : playBlocks keys (sdOf tabs) w quit d h (b :: bs) = if h'.2 then some h' else playBlocks keys (sdOf tabs) w quit d1 h' bs := by
          rw [playBlocks, if_pos hb, h1]
          simp only [Option.bind_some]
          rw [hear_fold hk ht o h ho2, hh]
          rfl
        rw [hplay]
        by_cases hq : h'.2 = true
        · rw [if_pos hq]
          refine ⟨h'.1, h'.2, rfl, ?_, g2, ?_, fun e => by rw [hq] at e; cases e⟩
          · rw [g1, List.flatten_cons, List.map_append, List.filter_append, ← List.append_assoc]
            exact List.prefix_append _ _
          · intro p hp hqp
            rw [g1] at hp ⊢
            rw [List.length_append]
            rcases Nat.lt_or_ge h.1.length p.length with hl | hl
            · omega
            · have hp1 : p <+: h.1 := List.prefix_of_prefix_length_le hp (List.prefix_append _ _) hl
              have ht := t.2 ⟨p, hp1, hqp⟩
              rcases hd with hd | hd
              · rw [hd] at ht; cases ht
              · rw [hd, List.length_nil]; omega
        · rw [if_neg hq]
          have hq' : h'.2 = false := by simpa using hq
          obtain ⟨got, broke, e1, e2⟩ := ih h2 (fun o ho' => ho o (by simp [ho'])) g2 (.inl hq')
          refine ⟨got, broke, e1, ?_⟩
          rw [List.flatten_cons, List.map_append, List.filter_append, ← List.append_assoc, ← g1]
          exact e2
    · have hs : sics (b :: bs) = sics bs := by
        unfold sics
        rw [List.filter_cons_of_neg (by simpa using hb)]
      rw [hs] at hf
      have hplay : playBlocks keys (sdOf tabs) w quit d h (b :: bs) = if h.2 then some h else playBlocks keys (sdOf tabs) w quit d h bs := by
        rw [playBlocks, if_neg hb]
        rfl
      rw [hplay]
      by_cases hq : h.2 = true
      · rw [if_pos hq]
        exact ⟨h.1, h.2, rfl, hears_now t hd fun e => by rw [hq] at e; cases e⟩
      · rw [if_neg hq]
        exact ih hf ho t hd

/-- The blocks of a file. -/
theorem play_ok {lib : Lib} {P : Db → Prop} {a : Abs} {f : File} {bs : List (UInt8 × Bytes)} {rs : List Zip.Rec} {file : Bytes × Bytes} (h : St lib P a f bs rs) (hn : a.now = none)
    (ho : openFile lib file = some f) (hb : f.c.body = file.1) (hlen : Readable file.1) (hr : Room a) (junk : Nat → UInt8) :
    ∃ outs : List (List Zip.Rec), Cp (dbsOf a.tabs) outs.flatten rs ∧ ∀ keys sdbs quit, ∃ got broke, play lib file keys sdbs quit junk = some (got, broke) ∧
      Hears quit ((outs.flatten.map (named a.keys a.tabs)).filter (asks ⟨keys.getD star, sdbs.getD star⟩)) got broke := by
  have hl := hlen.len
  have hkl : a.keys.length < 2 ^ 31 := by have := h.base.knum; rw [h.base.keys, hb] at this; omega
  have htl : a.tabs.length < 2 ^ 31 := by
    have := h.base.snum
    rw [h.base.tabs, hb] at this
    unfold sdOf at this
    rw [List.length_map] at this
    omega
  have hsum : (a.tabs.map fun t => t.2.size + 1).sum < 2 ^ 32 := by
    unfold Room at hr
    refine Nat.lt_of_le_of_lt ?_ hr
    exact Nat.le_mul_of_pos_left _ (by omega)
  obtain ⟨z, hz⟩ := makeZip_some (kd := a.keys) hsum
  obtain ⟨r1, r2⟩ := makeZip_ready hz
  have hht : hidOf (headByte 1 0 hidTail) = 31 := by decide
  have hread := readFull_smooth bs h.base.blocks _ hht (List.replicate 47 0) (by simp) (by rw [← h.base.body, hb]; exact hlen.cut)
  rw [← h.base.body, hb] at hread
  have hplay : ∀ keys sdbs quit, play lib file keys sdbs quit junk =
      (Zip.unStart z ((List.range z.maxdb).map junk)).bind fun x => playBlocks a.keys (sdOf a.tabs) ⟨keys.getD star, sdbs.getD star⟩ quit x.2 ([], quit []) bs := by
    intro keys sdbs quit
    unfold play withTail
    rw [ho]
    simp only [Option.bind_some, h.base.keys, h.base.tabs, hz, hread]
  obtain ⟨-, hpl⟩ := h.idle (h.none hn)
  suffices hd : ∃ r d outs d', Zip.unStart z ((List.range z.maxdb).map junk) = some (r, d) ∧ Zip.Feeds d (sics bs) outs d' ∧ Cp (dbsOf a.tabs) outs.flatten rs ∧ ∀ o ∈ outs, o.length < 131072 by
    obtain ⟨r, d, outs, d', h1, h2, h3, h4⟩ := hd
    refine ⟨outs, h3, fun keys sdbs quit => ?_⟩
    rw [hplay, h1, Option.bind_some]
    have := playBlocks_ok (w := ⟨keys.getD star, sdbs.getD star⟩) (quit := quit) hkl htl bs h2 (fun o ho => ⟨h4 o ho, fun x hx => ?_⟩) (told_start quit) (.inr rfl)
    · exact this
    · obtain ⟨y, hy, g1, g2, -⟩ := Sno.forall2_left h3 x (List.mem_flatten.2 ⟨o, ho, hx⟩)
      rw [g1, g2]
      exact h.rng y hy
  by_cases hts : a.tabs = []
  · have hrs : rs = [] := List.eq_nil_iff_forall_not_mem.2 fun x hx => by
      have := (h.rng x hx).2
      rw [hts] at this
      exact absurd this (Nat.not_lt_zero _)
    rw [h.empty hts, hrs]
    have hst : z.status ≠ 3 := by
      rw [hts] at hz
      have hz : some (Zip.setKey Zip.create a.keys.length).2 = some z := hz
      rw [← Option.some.inj hz]
      show (1 : Nat) ≠ 3
      decide
    exact ⟨-1, z, [], z, by unfold Zip.unStart; rw [if_pos hst], .nil, .nil, by simp⟩
  · unfold Room at hr
    obtain ⟨d, h1, h2⟩ := unStart_dec (junk := (List.range z.maxdb).map junk) r1 (r2 hts) (by unfold dbsOf; rw [List.map_map, Nat.max_comm] at *; exact hr) (by omega) (by simp)
    obtain ⟨outs, d', g1, g2, g3, g4⟩ := hpl [] (max 1 a.keys.length) d (Nat.le_max_right _ _) (by rw [List.append_nil]; exact h2)
    exact ⟨0, d, outs, d', h1, g1, g3, g4⟩

/-- Names instead of numbers. -/
theorem copies_ok {tabs : List (Bytes × Db)} {keys : List Bytes} {xs rs : List Zip.Rec} (hd : tabs.Pairwise fun a b => sameN a.1 b.1 = false) (h : Cp (dbsOf tabs) xs rs)
    (hr : ∀ x ∈ rs, x.1 < keys.length ∧ x.2.1 < tabs.length) : Copies tabs (xs.map (named keys tabs)) (rs.map (named keys tabs)) := by
  unfold Copies
  induction h with
  | nil => exact .nil
  | @cons x r xs rs h _ ih =>
    refine .cons ?_ (ih fun y hy => hr y (by simp [hy]))
    obtain ⟨h1, h2, db, h3, h4, h5, h6⟩ := h
    have hlt := (hr r (by simp)).2
    have e2 := List.getElem?_eq_getElem hlt
    refine ⟨by unfold named; rw [h1], by unfold named; rw [h2], by show x.2.2.length = r.2.2.length; rw [h4, h5], ?_⟩
    intro db' hm
    have htab : (named keys tabs r).tab = tabs[r.2.1].1 := by unfold named; rw [e2]; rfl
    rw [htab] at hm
    have hdb : db = tabs[r.2.1].2 := by
      unfold dbsOf at h3
      rw [List.getElem?_map, e2] at h3
      exact (Option.some.inj h3).symm
    have hself : tabs.find? (fun x => sameN tabs[r.2.1].1 x.1) = some (tabs[r.2.1].1, db') := Sno.find_same hd hm (sameN_refl _)
    have hself2 : tabs.find? (fun x => sameN tabs[r.2.1].1 x.1) = some tabs[r.2.1] := Sno.find_same hd (List.getElem_mem hlt) (sameN_refl _)
    rw [hself] at hself2
    have : db' = db := by rw [hdb, ← Option.some.inj hself2]
    rw [this]
    exact h6

end Sis.Sic
