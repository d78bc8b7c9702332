import Verif.Sdb.RefineSteps
/- The files of a database that was used in sessions hold the content it should have. -/
namespace Sis.Sdb
open Sis Sis.Disk
open Sis.Dyn (sameN getN setN Db sameN_iff sameN_refl getN_none getN_some setN_spec getN_congr)

theorem act_rel {lib : Lib} {P : Db → Prop} (L : Restores lib) (T : Readable lib P) (K : Tables P) {d : Disk} {w : Writer} {S : Store} {a : Abs} (h : Good lib P d w S)
    (hkd : KeyDiff w) (r : Rel P a S w.main) {v : Time.Env} {x : Act} (hok : Allowed v P a x) {w' : Writer} (hc : cmd lib v d w x.cmd = some w') (hs : Small w') :
    ∃ S', Good lib P d w' S' ∧ Rel P (a.act v x) S' w'.main := by
  cases x with
  | keys ks =>
    have hc : setKeys lib w (List.intercalate [44] ks) = w' := Option.some.inj hc
    exact ⟨S, keys_rel h r hok hc hs v⟩
  | tabs ts => exact ⟨S, tabs_rel (textOk T) (tabsOk K) h r hok.1 hok.2 hc hs v⟩
  | one k b =>
    have hk : KeyName k := hok.1
    obtain ⟨w1, g1, _, g3⟩ := one_step (zipOk L) (textOk T) (tabsOk K) h (goodKey hk) b
    have : w1 = w' := Option.some.inj (g1.symm.trans hc)
    rw [this] at g3
    obtain ⟨q1, q2, q3, q4⟩ := g3 hs
    exact ⟨_, q1, alone_rel r hk (.one b) q2 q3 q4⟩
  | mul k l =>
    have hk : KeyName k := hok.1
    obtain ⟨w1, g1, _, g3⟩ := mul_step (zipOk L) (textOk T) (tabsOk K) h (goodKey hk) l
    have : w1 = w' := Option.some.inj (g1.symm.trans hc)
    rw [this] at g3
    obtain ⟨q1, q2, q3, q4⟩ := g3 hs
    exact ⟨_, q1, alone_rel r hk (.mul l) q2 q3 q4⟩
  | rows k s b => exact rows_rel (zipOk L) (textOk T) K h hkd r hok.1 hok.2.1 hok.2.2.2 hc hs

theorem acts_rel {lib : Lib} {P : Db → Prop} (L : Restores lib) (T : Readable lib P) (K : Tables P) {d : Disk} {v : Time.Env} (as : List Act) :
    ∀ {w : Writer} {S : Store} {a : Abs}, Good lib P d w S → KeyDiff w → Rel P a S w.main →
      (∀ (pre : List Act) (x : Act) (post : List Act), as = pre ++ x :: post → Allowed v P (a.acts v pre) x) →
      ∀ {w' : Writer}, cmds lib v d w (as.map Act.cmd) = some w' → Small w' → ∃ S', Good lib P d w' S' ∧ Rel P (a.acts v as) S' w'.main := by
  induction as with
  | nil => intro w S a h _ r _ w' hc hs; cases hc; exact ⟨S, h, r⟩
  | cons x xs ih =>
    intro w S a h hkd r hok w' hc hs
    rw [List.map_cons, cmds] at hc
    obtain ⟨w1, h1, h2⟩ := Option.bind_eq_some_iff.1 hc
    obtain ⟨k1, _⟩ := cmd_grow hkd h1
    obtain ⟨_, g2⟩ := cmds_grow _ k1 h2
    obtain ⟨S1, s1, s2⟩ := act_rel L T K h hkd r (hok [] x xs rfl) h1 (g2.small hs)
    exact ih s1 k1 s2 (fun pre y post he => hok (x :: pre) y post (by rw [he]; rfl)) h2 hs

theorem hist_rel {lib : Lib} {P : Db → Prop} {v : Time.Env} (ht : lib.trace = false) (L : Restores lib) (T : Readable lib P) (K : Tables P) {d : Disk} {a : Abs}
    (h : Hist lib v P d a) : ∃ m S, DiskOk lib P d m S ∧ Rel P a S m := by
  induction h with
  | new => exact ⟨_, _, disk_new lib P, rel_new P⟩
  | session h s ih =>
    rename_i as _
    obtain ⟨hok, hr, hd⟩ := s
    obtain ⟨m, S, h1, h2⟩ := ih
    obtain ⟨o1, o2, o3⟩ := open_good h1
    unfold session at hr
    rw [o1, Option.bind_some] at hr
    obtain ⟨w', c1, c2⟩ := Option.bind_eq_some_iff.1 hr
    obtain ⟨k1, _⟩ := cmds_grow _ o3 c1
    have hds : DiskSmall _ := ⟨hd.main, hd.units⟩
    obtain ⟨S', s1, s2⟩ := acts_rel L T K as o2 o3 h2 hok c1 (close_small k1 c2 hds)
    exact ⟨_, S', close_good ht s1 c2 hds, s2⟩

end Sis.Sdb
