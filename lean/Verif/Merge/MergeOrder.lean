import Verif.Merge.MergeRun
import Mathlib.Data.List.Induction
/-
What is told is in order, and under names that were given.
-/
namespace Sis.Mrg
open Sis.Time (Style Env convert)

/-! ### Names -/

/-- The names in use. -/
structure Names (P Q : Bytes → Prop) (c : Cxt) : Prop where
  tab : ∀ t ∈ c.tabs, Q t.1
  unit : ∀ u ∈ c.units, P u.kn ∧ Q u.tn

/-- What may be told in the rounds. -/
def Good (P Q : Bytes → Prop) : Out → Prop
  | .record kn sn _ => P kn ∧ Q sn
  | .keyStop kn sn => P kn ∧ Q sn
  | _ => False

theorem names_push {v : Env} {P Q : Bytes → Prop} {c c' : Cxt} {kn sn : Bytes} {xs : List Item} (n : Names P Q c) (hp : P kn)
    (h : push v c kn sn xs = some c') : Names P Q c' := by
  unfold push at h
  cases hpl : place c.units kn sn with
  | some i =>
    rw [hpl] at h
    obtain ⟨u, hu, -⟩ := place_some hpl
    simp only [hu, Option.bind_some] at h
    obtain ⟨ts, -, -, h3, -, h5, -⟩ := put_eq h
    refine ⟨by rw [h5]; exact n.tab, ?_⟩
    intro w hw
    rw [h3] at hw
    rcases List.mem_or_eq_of_mem_set hw with hw | rfl
    · exact n.unit w hw
    · exact n.unit u (List.mem_of_getElem? hu)
  | none =>
    rw [hpl] at h
    simp only at h
    split at h
    · cases h
    · cases ht : c.tabs.find? (fun t => same t.1 sn) with
      | none => rw [ht] at h; cases h; exact n
      | some t =>
        rw [ht] at h
        obtain ⟨ts, -, -, h3, -, h5, -⟩ := put_eq h
        refine ⟨by rw [h5]; exact n.tab, ?_⟩
        intro w hw
        rw [h3] at hw
        rcases List.mem_or_eq_of_mem_set hw with hw | rfl
        · rcases List.mem_append.1 hw with hw | hw
          · exact n.unit w hw
          · simp only [List.mem_singleton] at hw
            subst hw
            exact ⟨hp, n.tab t (find_tab ht).1⟩
        · exact ⟨hp, n.tab t (find_tab ht).1⟩

theorem names_turn {v : Env} {P Q : Bytes → Prop} {curr : Nat} {s s' : St} {next next' : Option Nat} {i : Nat} (n : Names P Q s.c)
    (h : turn v curr (s, next) i = some (s', next')) : Names P Q s'.c ∧ ∃ b, s'.out = s.out ++ b ∧ ∀ o ∈ b, Good P Q o := by
  cases hu : s.c.units[i]? with
  | none => unfold turn at h; rw [hu] at h; cases h
  | some u =>
    rw [turn_eq v curr s next i hu] at h
    have hg := n.unit u (List.mem_of_getElem? hu)
    have na : Names P Q (after s i u (drain curr u.q)).c := by
      refine ⟨n.tab, ?_⟩
      intro w hw
      simp only [after] at hw
      rcases List.mem_or_eq_of_mem_set hw with hw | rfl
      · exact n.unit w hw
      · exact hg
    have hout : ∀ o ∈ (drain curr u.q).1.map (fun t => Out.record u.kn u.tn t.2), Good P Q o := by
      intro o ho
      obtain ⟨t, -, rfl⟩ := List.mem_map.1 ho
      exact hg
    split at h
    · rw [Option.map_eq_some_iff] at h
      obtain ⟨s1, h1, h2⟩ := h
      cases h2
      unfold react at h1
      have hb : ∀ o ∈ (drain curr u.q).1.map (fun t => Out.record u.kn u.tn t.2) ++ [Out.keyStop u.kn u.tn], Good P Q o := by
        intro o ho
        rcases List.mem_append.1 ho with ho | ho
        · exact hout o ho
        · simp only [List.mem_singleton] at ho; subst ho; exact hg
      simp only at h1
      cases hn : nextOf u.kn u.tn (after s i u (drain curr u.q)).more with
      | none =>
        rw [hn] at h1
        cases h1
        exact ⟨na, _, by simp only [after, List.append_assoc], hb⟩
      | some r =>
        rw [hn] at h1
        simp only [Option.map_eq_some_iff] at h1
        obtain ⟨c', hc, rfl⟩ := h1
        exact ⟨names_push na hg.1 hc, _, by simp only [after, List.append_assoc], hb⟩
    · cases h
      exact ⟨na, _, rfl, hout⟩

theorem names_turns {v : Env} {P Q : Bytes → Prop} {curr : Nat} : ∀ {is : List Nat} {s s' : St} {next next' : Option Nat},
    Names P Q s.c → is.foldlM (turn v curr) (s, next) = some (s', next') →
    Names P Q s'.c ∧ ∃ b, s'.out = s.out ++ b ∧ ∀ o ∈ b, Good P Q o
  | [], s, s', next, next', n, h => by
    cases h
    exact ⟨n, [], by simp, nofun⟩
  | i :: is, s, s', next, next', n, h => by
    rw [List.foldlM_cons] at h
    cases ht : turn v curr (s, next) i with
    | none => rw [ht] at h; cases h
    | some r =>
      rw [ht] at h
      obtain ⟨n1, b1, e1, g1⟩ := names_turn n ht
      obtain ⟨n2, b2, e2, g2⟩ := names_turns (s := r.1) (next := r.2) n1 h
      refine ⟨n2, b1 ++ b2, by rw [e2, e1, List.append_assoc], ?_⟩
      intro o ho
      rcases List.mem_append.1 ho with ho | ho
      · exact g1 o ho
      · exact g2 o ho

theorem names_rounds {v : Env} {P Q : Bytes → Prop} : ∀ {n : Nat} {s s' : St} {b : Bool}, Names P Q s.c →
    rounds v n s = some (s', b) → ∃ os, s'.out = s.out ++ os ∧ ∀ o ∈ os, Good P Q o
  | 0, s, s', b, _, h => by
    cases h
    exact ⟨[], by simp, nofun⟩
  | k + 1, s, s', b, n, h => by
    simp only [rounds] at h
    cases hr : round v s with
    | none => rw [hr] at h; cases h
    | some r =>
      rw [hr] at h
      have hr2 := hr
      unfold round at hr2
      rw [Option.map_eq_some_iff] at hr2
      obtain ⟨p, hp, he⟩ := hr2
      obtain ⟨n1, b1, e1, g1⟩ := names_turns (s' := p.1) (next' := p.2) n hp
      have hr1 : Names P Q r.1.c ∧ r.1.out = p.1.out := by
        rw [← he]
        split
        · exact ⟨n1, rfl⟩
        · split
          · exact ⟨⟨n1.tab, n1.unit⟩, rfl⟩
          · exact ⟨n1, rfl⟩
      simp only [Option.bind_some] at h
      split at h
      · cases h
        exact ⟨b1, by rw [hr1.2, e1], g1⟩
      · obtain ⟨b2, e2, g2⟩ := names_rounds hr1.1 h
        refine ⟨b1 ++ b2, by rw [e2, hr1.2, e1, List.append_assoc], ?_⟩
        intro o ho
        rcases List.mem_append.1 ho with ho | ho
        · exact g1 o ho
        · exact g2 o ho

/-! ### Order -/

/-- A merge whose queues are in order, and not earlier than the time of the round. -/
structure CSrt (W : Bytes → Item → Nat) (c : Cxt) : Prop where
  st : ∀ u ∈ c.units, (u.tn, u.style) ∈ c.tabs
  tm : ∀ u ∈ c.units, ∀ t ∈ u.q, t.1 = W u.tn t.2
  sq : ∀ u ∈ c.units, u.q.Pairwise fun a b => a.1 ≤ b.1
  low : ∀ u ∈ c.units, ∀ t ∈ u.q, c.newMsec ≤ t.1

theorem mem_total {us : List Chan} {u : Chan} (h : u ∈ us) (h0 : total us = 0) : u.q = [] := by
  induction us with
  | nil => cases h
  | cons w us ih =>
    rw [total_cons] at h0
    rcases List.mem_cons.1 h with rfl | h
    · exact List.length_eq_zero_iff.1 (by omega)
    · exact ih h (by omega)

theorem put_srt {v : Env} {W : Bytes → Item → Nat} {c c' : Cxt} {i : Nat} {u : Chan} {xs : List Item} (k : COk c) (s : CSrt W c)
    (hi : c.units[i]? = some u) (h : put v c i u xs = some c')
    (hW : ∀ x ∈ xs, vtime v c.scale u.style x = some (W u.tn x)) (hmono : ∀ x y : Item, x.time ≤ y.time → W u.tn x ≤ W u.tn y)
    (hs : (u.q.map Prod.snd ++ xs).Pairwise fun a b => a.time ≤ b.time) : CSrt W c' := by
  obtain ⟨ts, h1, h2, h3, -, h5, -, -, h8⟩ := put_eq h
  have hu := List.mem_of_getElem? hi
  have hts : ∀ t ∈ ts, t.1 = W u.tn t.2 := by
    intro t ht
    obtain ⟨x, hx, he⟩ := mapM_mem h1 t ht
    rw [hW x hx] at he
    cases he; rfl
  have htm : ∀ t ∈ u.q ++ ts, t.1 = W u.tn t.2 := by
    intro t ht
    rcases List.mem_append.1 ht with ht | ht
    · exact s.tm u hu t ht
    · exact hts t ht
  have hsq : (u.q ++ ts).Pairwise fun a b => a.1 ≤ b.1 := by
    have e : (u.q ++ ts).map Prod.snd = u.q.map Prod.snd ++ xs := by rw [List.map_append, h2]
    rw [← e] at hs
    have := List.pairwise_map.1 hs
    refine List.Pairwise.imp_of_mem (fun {a b} ha hb hab => ?_) this
    rw [htm a ha, htm b hb]
    exact hmono _ _ hab
  have hlow : ∀ t ∈ u.q ++ ts, c'.newMsec ≤ t.1 := by
    intro t ht
    rw [h8]
    cases hq : u.q with
    | nil =>
      cases hts' : ts with
      | nil => rw [hq, hts'] at ht; cases ht
      | cons t0 ts0 =>
        rw [hq, hts'] at ht hsq
        have h0 : t0.1 ≤ t.1 := by
          rcases List.mem_cons.1 ht with rfl | ht
          · exact Nat.le_refl _
          · exact (List.pairwise_cons.1 hsq).1 t ht
        simp only
        split
        · exact h0
        · rename_i hc
          have : ¬ t0.1 < c.newMsec := fun hx => hc (Or.inl hx)
          omega
    | cons t0 ts0 =>
      simp only
      rw [hq] at ht hsq
      have h0 : t0.1 ≤ t.1 := by
        rcases List.mem_cons.1 ht with rfl | ht
        · exact Nat.le_refl _
        · exact (List.pairwise_cons.1 hsq).1 t ht
      have := s.low u hu t0 (by rw [hq]; exact List.mem_cons_self)
      omega
  have hother : ∀ w ∈ c.units, ∀ t ∈ w.q, c'.newMsec ≤ t.1 := by
    intro w hw t ht
    have hl := s.low w hw t ht
    rw [h8]
    split
    · split
      · rename_i hc
        rcases hc with hc | hc
        · omega
        · rw [k.sums] at hc
          rw [mem_total hw hc] at ht
          cases ht
      · exact hl
    · exact hl
  refine ⟨?_, ?_, ?_, ?_⟩
  · intro w hw
    rw [h5]
    rw [h3] at hw
    rcases List.mem_or_eq_of_mem_set hw with hw | rfl
    · exact s.st w hw
    · exact s.st u hu
  · intro w hw
    rw [h3] at hw
    rcases List.mem_or_eq_of_mem_set hw with hw | rfl
    · exact s.tm w hw
    · exact htm
  · intro w hw
    rw [h3] at hw
    rcases List.mem_or_eq_of_mem_set hw with hw | rfl
    · exact s.sq w hw
    · exact hsq
  · intro w hw
    rw [h3] at hw
    rcases List.mem_or_eq_of_mem_set hw with hw | rfl
    · exact hother w hw
    · exact hlow

theorem push_srt {v : Env} {W : Bytes → Item → Nat} {c c' : Cxt} {kn sn : Bytes} {xs : List Item} (k : COk c) (s : CSrt W c)
    (h : push v c kn sn xs = some c') (hW : ∀ t ∈ c.tabs, alike t.1 sn → ∀ x ∈ xs, vtime v c.scale t.2 x = some (W t.1 x))
    (hmono : ∀ t ∈ c.tabs, ∀ x y : Item, x.time ≤ y.time → W t.1 x ≤ W t.1 y)
    (hs : Known c sn → ((pend c.units kn sn).map Prod.snd ++ xs).Pairwise fun a b => a.time ≤ b.time) : CSrt W c' := by
  unfold push at h
  cases hp : place c.units kn sn with
  | some i =>
    rw [hp] at h
    obtain ⟨u, hu, hf⟩ := place_some hp
    simp only [hu, Option.bind_some] at h
    have hm := List.mem_of_getElem? hu
    have hk : Known c sn := by
      obtain ⟨t, ht, ha⟩ := k.tab u hm
      exact ⟨t, ht, alike_trans ha hf.2⟩
    refine put_srt k s hu h (hW _ (s.st u hm) (alike_trans (k.tn u hm) hf.2)) (hmono _ (s.st u hm)) ?_
    have := hs hk
    rw [pend_of k.uniq hu hf] at this
    exact this
  | none =>
    rw [hp] at h
    simp only at h
    split at h
    · cases h
    · cases ht : c.tabs.find? (fun t => same t.1 sn) with
      | none => rw [ht] at h; cases h; exact s
      | some t =>
        rw [ht] at h
        obtain ⟨t1, t2⟩ := find_tab ht
        have hk' := fresh_ok k hp t1 t2
        have hi : (c.units ++ [fresh kn sn t])[c.units.length]? = some (fresh kn sn t) := by simp
        have hs' : CSrt W { c with units := c.units ++ [fresh kn sn t] } := by
          have hx : ∀ w ∈ c.units ++ [fresh kn sn t], w ∈ c.units ∨ w = fresh kn sn t := by
            intro w hw
            rcases List.mem_append.1 hw with hw | hw
            · exact Or.inl hw
            · exact Or.inr (List.mem_singleton.1 hw)
          refine ⟨?_, ?_, ?_, ?_⟩
          · intro w hw
            rcases hx w hw with hw | rfl
            · exact s.st w hw
            · exact t1
          · intro w hw
            rcases hx w hw with hw | rfl
            · exact s.tm w hw
            · exact nofun
          · intro w hw
            rcases hx w hw with hw | rfl
            · exact s.sq w hw
            · exact List.Pairwise.nil
          · intro w hw
            rcases hx w hw with hw | rfl
            · exact s.low w hw
            · exact nofun
        refine put_srt hk' hs' hi h (hW t t1 t2) (hmono t t1) ?_
        have := hs ⟨t, t1, t2⟩
        have hnil : pend c.units kn sn = [] := by
          have hn := place_none hp
          clear hs this hs' hk' hi h ht hp hW hmono s k
          generalize c.units = us at hn
          induction us with
          | nil => rfl
          | cons w us ih =>
            simp only [pend, if_neg (hn w List.mem_cons_self)]
            exact ih fun x hx => hn x (List.mem_cons_of_mem _ hx)
        rw [hnil] at this
        exact this

/-- What holds in a round in which some keys have had their turn. -/
structure TSrt (W : Bytes → Item → Nat) (curr : Nat) (done : List Nat) (s : St) (next : Option Nat) : Prop where
  more : s.more = []
  msec : s.c.newMsec = curr
  c : CSrt W s.c
  out : (records s.out).Pairwise fun a b => W a.1.2 a.2 ≤ W b.1.2 b.2
  hi : ∀ r ∈ records s.out, W r.1.2 r.2 ≤ curr
  nxt : ∀ n, next = some n → curr ≤ n
  dn : ∀ i ∈ done, ∀ u t, s.c.units[i]? = some u → t ∈ u.q → ∃ n, next = some n ∧ n ≤ t.1

theorem drain_le {curr : Nat} : ∀ {q : List (Nat × Item)}, ∀ t ∈ (drain curr q).1, t.1 ≤ curr
  | [], t, h => by cases h
  | a :: q, t, h => by
    unfold drain at h
    split at h
    · rcases List.mem_cons.1 h with rfl | h
      · assumption
      · exact drain_le t h
    · cases h

theorem drain_gt {curr : Nat} : ∀ {q : List (Nat × Item)} {t ts}, (drain curr q).2 = t :: ts → curr < t.1
  | [], t, ts, h => by cases h
  | a :: q, t, ts, h => by
    unfold drain at h
    split at h
    · exact drain_gt h
    · cases h; omega

theorem records_stop (kn sn : Bytes) (os : List Out) : records (os ++ [.keyStop kn sn]) = records os := by
  rw [records_append]; simp [records]

theorem turn_srt {v : Env} {W : Bytes → Item → Nat} {curr : Nat} {done : List Nat} {s s' : St} {next next' : Option Nat} {i : Nat}
    (k : TSrt W curr done s next) (h : turn v curr (s, next) i = some (s', next')) : TSrt W curr (i :: done) s' next' := by
  cases hu : s.c.units[i]? with
  | none => unfold turn at h; rw [hu] at h; cases h
  | some u =>
    rw [turn_eq v curr s next i hu] at h
    have hm := List.mem_of_getElem? hu
    have happ := drain_append curr u.q
    have hle := @drain_le curr u.q
    have hgt := @drain_gt curr u.q
    generalize drain curr u.q = r at h happ hle hgt
    have hreact : ∀ os, react v { after s i u r with out := os } u.kn u.tn = some { after s i u r with out := os } := by
      intro os
      unfold react
      have : (after s i u r).more = [] := k.more
      simp only [this, nextOf]
    have hres : s'.more = [] ∧ s'.c = (after s i u r).c ∧ records s'.out = records (after s i u r).out ∧ next' = least next r.2 := by
      split at h
      · rw [hreact] at h
        cases h
        exact ⟨k.more, rfl, records_stop _ _ _, rfl⟩
      · cases h
        exact ⟨k.more, rfl, rfl, rfl⟩
    obtain ⟨r1, r2, r3, r4⟩ := hres
    have hin : ∀ t ∈ r.2, t ∈ u.q := fun t ht => by rw [← happ]; exact List.mem_append_right _ ht
    have hin1 : ∀ t ∈ r.1, t ∈ u.q := fun t ht => by rw [← happ]; exact List.mem_append_left _ ht
    have hq : (r.1 ++ r.2).Pairwise fun a b => a.1 ≤ b.1 := by rw [happ]; exact k.c.sq u hm
    have hunits : s'.c.units = s.c.units.set i { u with q := r.2 } := by rw [r2]; rfl
    have hmem : ∀ w ∈ s'.c.units, w ∈ s.c.units ∨ w = { u with q := r.2 } := by
      intro w hw
      rw [hunits] at hw
      exact List.mem_or_eq_of_mem_set hw
    have hms : s'.c.newMsec = curr := by rw [r2]; exact k.msec
    have hrec : records s'.out = records s.out ++ r.1.map fun t => ((u.kn, u.tn), t.2) := by
      rw [r3]
      simp only [after, records_append, records_map]
    have hcur : ∀ t ∈ r.1, W u.tn t.2 = curr := by
      intro t ht
      have h1 := hle t ht
      have h2 := k.c.low u hm t (hin1 t ht)
      rw [k.msec] at h2
      rw [← k.c.tm u hm t (hin1 t ht)]
      omega
    have hl1 : ∀ n, next = some n → ∃ n0, least next r.2 = some n0 ∧ n0 ≤ n := by
      rintro n rfl
      unfold least
      split
      · exact ⟨n, rfl, Nat.le_refl _⟩
      · simp only
        split
        · exact ⟨_, rfl, by omega⟩
        · exact ⟨_, rfl, Nat.le_refl _⟩
    refine ⟨r1, hms, ⟨?_, ?_, ?_, ?_⟩, ?_, ?_, ?_, ?_⟩
    · intro w hw
      rw [r2]
      rcases hmem w hw with hw | rfl
      · exact k.c.st w hw
      · exact k.c.st u hm
    · intro w hw t ht
      rcases hmem w hw with hw | rfl
      · exact k.c.tm w hw t ht
      · exact k.c.tm u hm t (hin t ht)
    · intro w hw
      rcases hmem w hw with hw | rfl
      · exact k.c.sq w hw
      · exact (List.pairwise_append.1 hq).2.1
    · intro w hw t ht
      rw [hms, ← k.msec]
      rcases hmem w hw with hw | rfl
      · exact k.c.low w hw t ht
      · exact k.c.low u hm t (hin t ht)
    · rw [hrec]
      refine List.pairwise_append.2 ⟨k.out, ?_, ?_⟩
      · refine List.pairwise_map.2 (List.pairwise_of_forall_mem_list fun a ha b hb => ?_)
        simp only [hcur a ha, hcur b hb, Nat.le_refl]
      · intro a ha b hb
        obtain ⟨t, ht, rfl⟩ := List.mem_map.1 hb
        simp only [hcur t ht]
        exact k.hi a ha
    · intro a ha
      rw [hrec] at ha
      rcases List.mem_append.1 ha with ha | ha
      · exact k.hi a ha
      · obtain ⟨t, ht, rfl⟩ := List.mem_map.1 ha
        simp only [hcur t ht, Nat.le_refl]
    · intro n hn
      rw [r4] at hn
      cases hr2 : r.2 with
      | nil => rw [hr2] at hn; exact k.nxt n hn
      | cons t ts =>
        rw [hr2] at hn
        have := hgt hr2
        cases next with
        | none => simp only [least, Option.some.injEq] at hn; omega
        | some m =>
          have := k.nxt m rfl
          simp only [least] at hn
          split at hn
          · cases hn; omega
          · cases hn; omega
    · intro j hj w t hw ht
      rw [r4]
      rw [hunits, List.getElem?_set] at hw
      by_cases hij : i = j
      · subst hij
        rw [if_pos rfl, if_pos (List.getElem?_eq_some_iff.1 hu).1] at hw
        cases hw
        simp only at ht
        cases hr2 : r.2 with
        | nil => rw [hr2] at ht; cases ht
        | cons t0 ts =>
          have h0 : t0.1 ≤ t.1 := by
            have hp := (List.pairwise_append.1 hq).2.1
            rw [hr2] at hp ht
            rcases List.mem_cons.1 ht with rfl | ht
            · exact Nat.le_refl _
            · exact (List.pairwise_cons.1 hp).1 t ht
          cases next with
          | none => exact ⟨_, rfl, h0⟩
          | some m =>
            simp only [least]
            split
            · exact ⟨_, rfl, h0⟩
            · exact ⟨_, rfl, by omega⟩
      · rw [if_neg hij] at hw
        rcases List.mem_cons.1 hj with rfl | hj
        · exact absurd rfl hij
        · obtain ⟨n, h1, h2⟩ := k.dn j hj w t hw ht
          obtain ⟨n0, h3, h4⟩ := hl1 n h1
          exact ⟨n0, h3, by omega⟩

theorem turns_srt {v : Env} {W : Bytes → Item → Nat} {curr : Nat} : ∀ {is done : List Nat} {s s' : St} {next next' : Option Nat},
    TSrt W curr done s next → is.foldlM (turn v curr) (s, next) = some (s', next') → TSrt W curr (is.reverse ++ done) s' next'
  | [], done, s, s', next, next', k, h => by cases h; exact k
  | i :: is, done, s, s', next, next', k, h => by
    rw [List.foldlM_cons] at h
    cases ht : turn v curr (s, next) i with
    | none => rw [ht] at h; cases h
    | some r =>
      rw [ht] at h
      have := turns_srt (s := r.1) (next := r.2) (turn_srt k ht) h
      simpa using this

theorem rounds_srt {v : Env} {W : Bytes → Item → Nat} : ∀ {n : Nat} {s s' : St} {b : Bool}, SOk v s → s.more = [] → CSrt W s.c →
    ((records s.out).Pairwise fun a b => W a.1.2 a.2 ≤ W b.1.2 b.2) → (∀ r ∈ records s.out, W r.1.2 r.2 ≤ s.c.newMsec) →
    rounds v n s = some (s', b) → (records s'.out).Pairwise fun a b => W a.1.2 a.2 ≤ W b.1.2 b.2
  | 0, s, s', b, _, _, _, ho, _, h => by cases h; exact ho
  | m + 1, s, s', b, k, hm, hc, ho, hh, h => by
    obtain ⟨p, n', e, k', l', -⟩ := turns_ok (v := v) s.c.newMsec (List.range s.c.units.length) none k
      (fun i hi => List.mem_range.1 hi)
    have ts := turns_srt (W := W) (done := []) (v := v) (curr := s.c.newMsec)
      (⟨hm, rfl, hc, ho, hh, nofun, nofun⟩ : TSrt W s.c.newMsec [] s none) e
    simp only [rounds, round, e, Option.map_some, Option.bind_some] at h
    by_cases h0 : p.c.newSums = 0
    · rw [if_pos h0] at h
      simp only [if_true] at h
      cases h
      exact ts.out
    · rw [if_neg h0, if_pos ts.msec.symm] at h
      simp only [Bool.false_eq_true, if_false] at h
      have hlen : p.c.units.length = s.c.units.length := by
        clear h ts k' l' h0
        have : ∀ (curr : Nat) (is : List Nat) (s p : St) (next n' : Option Nat), s.more = [] → is.foldlM (turn v curr) (s, next) = some (p, n') →
            p.c.units.length = s.c.units.length := by
          intro curr is
          induction is with
          | nil => intro s p next n' _ h; cases h; rfl
          | cons i is ih =>
            intro s p next n' hm h
            rw [List.foldlM_cons] at h
            cases ht : turn v curr (s, next) i with
            | none => rw [ht] at h; cases h
            | some r =>
              rw [ht] at h
              have h1 : r.1.more = [] ∧ r.1.c.units.length = s.c.units.length := by
                cases hu : s.c.units[i]? with
                | none => unfold turn at ht; rw [hu] at ht; cases ht
                | some u =>
                  rw [turn_eq v curr s next i hu] at ht
                  split at ht
                  · unfold react at ht
                    have : (after s i u (drain curr u.q)).more = [] := hm
                    simp only [this, nextOf, Option.map_some, Option.some.injEq] at ht
                    rw [← ht]
                    exact ⟨rfl, by simp [after]⟩
                  · cases ht
                    exact ⟨hm, by simp [after]⟩
              rw [ih r.1 p r.2 n' h1.1 h, h1.2]
        exact this _ _ _ _ _ _ hm e
      have hne : total p.c.units ≠ 0 := by rw [← k'.c.sums]; exact h0
      have hall : ∀ u ∈ p.c.units, ∀ t ∈ u.q, ∃ n, n' = some n ∧ n ≤ t.1 := by
        intro u hu t ht
        obtain ⟨i, hi, rfl⟩ := List.mem_iff_getElem.1 hu
        refine ts.dn i ?_ _ t (List.getElem?_eq_getElem hi) ht
        simp only [List.append_nil, List.mem_reverse, List.mem_range]
        omega
      have hsome : ∃ n, n' = some n := by
        cases hn : n' with
        | some n => exact ⟨n, rfl⟩
        | none =>
          exfalso
          apply hne
          rw [hn] at hall
          generalize p.c.units = us at hall
          clear * - hall
          induction us with
          | nil => rfl
          | cons w us ih =>
            rw [total_cons, ih fun u hu => hall u (List.mem_cons_of_mem _ hu)]
            cases hq : w.q with
            | nil => rfl
            | cons t ts =>
              obtain ⟨n, h1, -⟩ := hall w List.mem_cons_self t (by rw [hq]; exact List.mem_cons_self)
              cases h1
      obtain ⟨n, rfl⟩ := hsome
      refine rounds_srt (n := m) (s := { p with c := { p.c with newMsec := n } }) (b := b)
        ⟨⟨k'.c.uniq, k'.c.tn, k'.c.tab, k'.c.sums⟩, k'.bound, k'.conv, k'.live⟩ ts.more ⟨ts.c.st, ts.c.tm, ts.c.sq, ?_⟩ ts.out ?_ h
      · intro u hu t ht
        obtain ⟨n1, h1, h2⟩ := hall u hu t ht
        cases h1
        exact h2
      · intro r hr
        have h1 := ts.hi r hr
        have h2 := ts.nxt n rfl
        simp only
        omega

theorem calls_srt {v : Env} {W : Bytes → Item → Nat} : ∀ {cs : List Call} {c c' : Cxt} (known : List Bytes), COk c → CSrt W c →
    (∀ sn, Known c sn ↔ ∃ t ∈ known, alike t sn) → total c.units + count cs < 2 ^ 32 → cs.foldlM (call v) c = some c' →
    (∀ tn st, Call.tab tn st ∉ cs) →
    (∀ t ∈ c.tabs, ∀ kn sn xs, Call.push kn sn xs ∈ cs → alike t.1 sn → ∀ x ∈ xs, vtime v c.scale t.2 x = some (W t.1 x)) →
    (∀ t ∈ c.tabs, ∀ x y : Item, x.time ≤ y.time → W t.1 x ≤ W t.1 y) →
    (∀ pre, pre <+: cs → ∀ kn sn, (given kn sn known ((pend c.units kn sn).map Prod.snd) pre).Pairwise fun a b => a.time ≤ b.time) →
    CSrt W c'
  | [], c, c', known, k, s, _, _, h, _, _, _, _ => by cases h; exact s
  | .tab tn st :: cs, c, c', known, k, s, _, _, h, ht, _, _, _ => absurd List.mem_cons_self (ht tn st)
  | .clear :: cs, c, c', known, k, s, hk, hb, h, ht, hW, hmono, hs => by
    rw [List.foldlM_cons] at h
    simp only [call, count] at h hb
    have htot : total (clear c).units = 0 := total_map_nil _
    refine calls_srt (cs := cs) (c := clear c) known (clear_ok k) ?_ hk (by omega) h (fun tn st hm => ht tn st (List.mem_cons_of_mem _ hm))
      (fun t h1 kn sn xs h2 => hW t h1 kn sn xs (List.mem_cons_of_mem _ h2)) hmono ?_
    · have hx : ∀ w ∈ (clear c).units, w.q = [] ∧ (w.tn, w.style) ∈ c.tabs := by
        intro w hw
        simp only [clear, List.mem_map] at hw
        obtain ⟨u, hu, rfl⟩ := hw
        exact ⟨rfl, s.st u hu⟩
      refine ⟨fun w hw => (hx w hw).2, ?_, ?_, ?_⟩
      · intro w hw; rw [(hx w hw).1]; exact nofun
      · intro w hw; rw [(hx w hw).1]; exact List.Pairwise.nil
      · intro w hw; rw [(hx w hw).1]; exact nofun
    · intro pre hp kn sn
      obtain ⟨q, hq⟩ := hp
      have := hs (.clear :: pre) ⟨q, by rw [← hq]; rfl⟩ kn sn
      simp only [given] at this
      have e : pend (clear c).units kn sn = [] := pend_clear _ _ _
      rw [e]
      exact this
  | .push kn sn xs :: cs, c, c', known, k, s, hk, hb, h, ht, hW, hmono, hs => by
    rw [List.foldlM_cons] at h
    simp only [call, count] at h hb
    cases hp : push v c kn sn xs with
    | none => rw [hp] at h; cases h
    | some c1 =>
      rw [hp] at h
      obtain ⟨p1, p2, p3, p4, p5, p6⟩ := push_ok k (by omega) hp
      have hs1 := hs [.push kn sn xs] ⟨cs, rfl⟩ kn sn
      have hsrt : CSrt W c1 := by
        by_cases hkn : Known c sn
        · -- only the tables that match are asked for
          refine push_srt k s hp ?_ hmono ?_
          · intro t h1 h2
            exact hW t h1 kn sn xs List.mem_cons_self h2
          · simp only [given] at hs1
            rw [if_pos ⟨alike_refl _, alike_refl _, (hk sn).1 hkn⟩] at hs1
            exact fun _ => hs1
        · have : push v c kn sn xs = some c ∨ push v c kn sn xs = none := by
            unfold push
            have hpl : place c.units kn sn = none := by
              cases hpl : place c.units kn sn with
              | none => rfl
              | some i =>
                obtain ⟨u, hu, hf⟩ := place_some hpl
                obtain ⟨t, h1, h2⟩ := k.tab u (List.mem_of_getElem? hu)
                exact absurd ⟨t, h1, alike_trans h2 hf.2⟩ hkn
            have hft : c.tabs.find? (fun t => same t.1 sn) = none :=
              List.find?_eq_none.2 fun t h1 h2 => hkn ⟨t, h1, same_iff.1 h2⟩
            rw [hpl]
            simp only [hft]
            split
            · exact Or.inr rfl
            · exact Or.inl rfl
          rcases this with hz | hz
          · rw [hp] at hz; cases hz; exact s
          · rw [hp] at hz; cases hz
      refine calls_srt (cs := cs) (c := c1) known p1 hsrt (fun sn => by rw [← hk]; unfold Known; rw [p2]) (by omega) h
        (fun tn st hm => ht tn st (List.mem_cons_of_mem _ hm))
        (fun t h1 kn sn xs h2 h3 x hx => by rw [p3]; exact hW t (p2 ▸ h1) kn sn xs (List.mem_cons_of_mem _ h2) h3 x hx)
        (fun t h1 => hmono t (p2 ▸ h1)) ?_
      intro pre hpre kn' sn'
      obtain ⟨q, hq⟩ := hpre
      have := hs (.push kn sn xs :: pre) ⟨q, by rw [← hq]; rfl⟩ kn' sn'
      simp only [given] at this
      rw [p6]
      have e : ((pend c.units kn' sn').map Prod.snd ++ if alike kn kn' ∧ alike sn sn' ∧ Known c sn then xs else []) =
          if alike kn kn' ∧ alike sn sn' ∧ ∃ t ∈ known, alike t sn then (pend c.units kn' sn').map Prod.snd ++ xs
            else (pend c.units kn' sn').map Prod.snd := by
        by_cases hc : alike kn kn' ∧ alike sn sn' ∧ ∃ t ∈ known, alike t sn
        · rw [if_pos hc, if_pos ⟨hc.1, hc.2.1, (hk sn).2 hc.2.2⟩]
        · rw [if_neg hc, if_neg fun hg => hc ⟨hg.1, hg.2.1, (hk sn).1 hg.2.2⟩, List.append_nil]
      rw [e]
      exact this

end Sis.Mrg
