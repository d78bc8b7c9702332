import Verif.Server.SubLemmas
/-
C50, C51 and the part of C49 about subscriptions.
-/
namespace Sis.Sub

open Sis.Access (str)

/-- A write and whom it notifies. -/
private theorem write_some {s s' : St} {k : Bytes} {ns : List Int} (h : step s (.write k) = some (s', .notified ns)) :
    ∃ r, pubMul k s.mul = some r ∧ s' = s ∧ ns = pubOne k s.one ++ r := by
  simp only [step, pub, Option.map_eq_some_iff, Prod.mk.injEq, Out.notified.injEq] at h
  obtain ⟨l, ⟨r, h1, h2⟩, h3, h4⟩ := h
  exact ⟨r, h1, h3.symm, by rw [← h4, ← h2]⟩

/-- C50: after any history, a write notifies a client that subscribed to exactly this key, if it has no pattern, exactly once,
however often it subscribed. -/
theorem C50_exactly_once_partial (ops : List Op) (s s' : St) (H : Hist ops s) (hc : Clean ops) (k : Bytes) (hk : CStr k)
    (ns : List Int) (hw : step s (.write k) = some (s', .notified ns)) (cid : Int) (p : Bytes)
    (hsub : (cid, p, false) ∈ active ops) (hp : isPattern p = false) (hpk : low p = low k)
    (hno : ∀ q h, (cid, q, h) ∈ active ops → h = false ∧ isPattern q = false) : ns.count cid = 1 := by
  obtain ⟨r, hr, -, rfl⟩ := write_some hw
  obtain ⟨i1, i2⟩ := hist_inv H hc
  obtain ⟨e, he, hl, hin⟩ := i1.complete cid p ⟨hsub, hp⟩
  rw [show pubOne k s.one = e.2.cids by simp only [pubOne, find_mem i1 hk he (hl.trans hpk)]]
  simp only [List.count_append]
  have h0 : cid ∉ r := by
    rw [pubMul_mem hr]
    rintro ⟨e', he', -, hin'⟩
    obtain ⟨q, ⟨h, h1, h2⟩, -⟩ := i2.sound e' he' cid hin'
    obtain ⟨h3, h4⟩ := hno q h h1
    rw [h3, h4] at h2
    rcases h2 with h2 | h2 <;> exact nomatch h2
  rw [List.count_eq_zero.2 h0, (i1.nodup e he).count, if_pos hin]

/-- C50: whoever is notified has a subscription to this key, or a pattern that covers it. -/
theorem C50_only_subscribers_partial (ops : List Op) (s s' : St) (H : Hist ops s) (hc : Clean ops) (k : Bytes) (hk : CStr k)
    (hkc : 44 ∉ k) (ns : List Int) (hw : step s (.write k) = some (s', .notified ns)) (cid : Int) (hn : cid ∈ ns) :
    ∃ p h, (cid, p, h) ∈ active ops ∧ (low p = low k ∨ Covers true (low p) (low k)) := by
  obtain ⟨r, hr, -, rfl⟩ := write_some hw
  obtain ⟨i1, i2⟩ := hist_inv H hc
  rcases List.mem_append.1 hn with hn | hn
  · cases hf : find s.one k with
    | none => simp [pubOne, hf] at hn
    | some u =>
      simp only [pubOne, hf] at hn
      obtain ⟨e, he, rfl, hce⟩ := find_some hf
      rw [caseEq_low hk (i1.cstr e he)] at hce
      obtain ⟨p, h1, h2⟩ := i1.sound e he cid hn
      exact ⟨p, false, h1.1, Or.inl (h2.trans hce.symm)⟩
  · rw [pubMul_mem hr] at hn
    obtain ⟨e, he, hm, hin⟩ := hn
    obtain ⟨p, ⟨h, h1, -⟩, h2⟩ := i2.sound e he cid hin
    obtain ⟨g, u, -, hu, heu⟩ := i2.made e he
    rw [heu] at hm
    have := (unitMatch_spec (i2.cstr e he) hk hkc hu hm).1 rfl
    rw [← h2] at this
    exact ⟨p, h, h1, Or.inr (covers_mono this)⟩

/-- C50: a subscription to exactly this key is always notified, whatever other subscriptions there are. -/
theorem C50_at_least_once (ops : List Op) (s s' : St) (H : Hist ops s) (hc : Clean ops) (k : Bytes) (hk : CStr k)
    (ns : List Int) (hw : step s (.write k) = some (s', .notified ns)) (cid : Int) (p : Bytes)
    (hsub : (cid, p, false) ∈ active ops) (hp : isPattern p = false) (hpk : low p = low k) : cid ∈ ns := by
  obtain ⟨r, -, -, rfl⟩ := write_some hw
  obtain ⟨i1, -⟩ := hist_inv H hc
  obtain ⟨e, he, hl, hin⟩ := i1.complete cid p ⟨hsub, hp⟩
  rw [show pubOne k s.one = e.2.cids by simp only [pubOne, find_mem i1 hk he (hl.trans hpk)]]
  exact List.mem_append_left _ hin

/-- C50, C51: writing a key shorter than 128 bytes is always safe and leaves the subscriptions alone. -/
theorem C50_short_keys_safe (s : St) (k : Bytes) (h : k.length < 128) : ∃ ns, step s (.write k) = some (s, .notified ns) := by
  obtain ⟨r, hr⟩ := pubMul_defined h s.mul
  exact ⟨pubOne k s.one ++ r, by simp only [step, pub, hr, Option.map_some]⟩

/-- A small history: two clients subscribe to the same key, one of them twice, and the other cancels. -/
example : (run start [.sub 1 (str "K.day") false, .sub 2 (str "k.DAY") false, .sub 1 (str "k.day") false, .write (str "k.day"), .unsub 2,
    .write (str "k.day"), .write (str "k.min")]).map Prod.snd =
    some [.reply 1, .reply 1, .reply 0, .notified [1, 2], .reply 1, .notified [1], .notified []] := by decide +kernel

/-- C50 fails for a client with a key and a pattern: it is notified twice of one write. -/
theorem C50_twice_violated :
    (run start [.sub 1 (str "k.day") false, .sub 1 (str "*") false, .write (str "k.day")]).map Prod.snd =
      some [.reply 1, .reply 1, .notified [1, 1]] := by decide +kernel

/-- C51, for `*`, `*.*`, patterns with a comma and subscriptions by heads: a client is notified of every key its pattern covers, after
any history in which nobody used the same subject both ways. -/
theorem C51_patterns_partial (ops : List Op) (s s' : St) (H : Hist ops s) (hc : Clean ops) (k : Bytes) (hk : CStr k) (hkc : 44 ∉ k)
    (ns : List Int) (hw : step s (.write k) = some (s', .notified ns)) (cid : Int) (p : Bytes) (h : Bool)
    (hsub : (cid, p, h) ∈ active ops) (hp : h = true ∨ 44 ∈ p ∨ low p = [42] ∨ low p = [42, 46, 42])
    (hsame : ∀ c q g, Op.sub c q g ∈ ops → low q = low p → g = h) (hcov : Covers h (low p) (low k)) : cid ∈ ns := by
  obtain ⟨r, hr, -, rfl⟩ := write_some hw
  obtain ⟨-, i2⟩ := hist_inv H hc
  have hstar : ∀ q : Bytes, 42 ∈ low q → isPattern q = true := by
    intro q hq
    rw [low_mem (by simp)] at hq
    exact List.any_eq_true.2 ⟨42, hq, rfl⟩
  have hpat : h = true ∨ isPattern p = true := by
    rcases hp with hp | hp | hp | hp
    · exact Or.inl hp
    · exact Or.inr (List.any_eq_true.2 ⟨44, hp, rfl⟩)
    · exact Or.inr (hstar p (by rw [hp]; simp))
    · exact Or.inr (hstar p (by rw [hp]; simp))
  obtain ⟨e, he, hl, hin⟩ := i2.complete cid p ⟨h, hsub, hpat⟩
  obtain ⟨g, u, ⟨⟨c, hg⟩, -⟩, hu, heu⟩ := i2.made e he
  have hgh : g = h := hsame c e.1 g hg hl
  subst hgh
  apply List.mem_append_right
  rw [pubMul_mem hr]
  refine ⟨e, he, ?_, hin⟩
  obtain ⟨b, hb⟩ := pubMul_each hr e he
  have hb' := hb
  rw [heu] at hb
  have h44 : 44 ∈ p → 44 ∈ e.1 := by
    intro hx
    rw [← low_mem (by simp), hl, low_mem (by simp)]
    exact hx
  have := (unitMatch_spec (i2.cstr e he) hk hkc hu hb).2 (by rw [hl]; exact hcov) (by
    rw [hl]
    rcases hp with hp | hp | hp | hp
    · exact Or.inl hp
    · exact Or.inr (Or.inl (h44 hp))
    · exact Or.inr (Or.inr (Or.inl hp))
    · exact Or.inr (Or.inr (Or.inr hp)))
  rw [hb', this]

example : (run start [.sub 1 (str "*.day,min") false, .sub 2 (str "sh6,SZ0.*") true, .sub 3 (str "*") false, .write (str "sh600.DAY"),
    .write (str "bj.min"), .write (str "sz0.tick")]).map Prod.snd =
    some [.reply 1, .reply 1, .reply 1, .notified [1, 2, 3], .notified [1, 3], .notified [2, 3]] := by decide +kernel

/-- C51 fails for one table of all keys, `*.day`, and for all tables of one key, `k.*`: nobody is notified. -/
theorem C51_one_table_violated :
    Covers false (low (str "*.day")) (low (str "k.day")) ∧ Covers false (low (str "k.*")) (low (str "k.day")) ∧
    (run start [.sub 1 (str "*.day") false, .sub 2 (str "k.*") false, .write (str "k.day")]).map Prod.snd =
      some [.reply 1, .reply 1, .notified []] := by
  refine ⟨?_, ?_, by decide +kernel⟩
  · exact Or.inr (Or.inr (Or.inr ⟨[42], low (str "day"), low (str "k"), low (str "day"), by decide +kernel, by decide +kernel,
      by decide +kernel, by decide +kernel, Or.inl rfl, Or.inr ⟨low (str "day"), by decide +kernel, by decide +kernel, rfl⟩⟩))
  · exact Or.inr (Or.inr (Or.inr ⟨low (str "k"), [42], low (str "k"), low (str "day"), by decide +kernel, by decide +kernel,
      by decide +kernel, by decide +kernel, Or.inr ⟨low (str "k"), by decide +kernel, by decide +kernel, rfl⟩, Or.inl rfl⟩))

/-- C51 fails for a subscription by heads if somebody else uses the same subject as a list: the first one decides for both. -/
theorem C51_first_decides_violated :
    (run start [.sub 1 (str "a,b") false, .sub 2 (str "a,b") true, .write (str "abc")]).map Prod.snd =
      some [.reply 1, .reply 1, .notified []] ∧
    (run start [.sub 2 (str "a,b") true, .write (str "abc")]).map Prod.snd = some [.reply 1, .notified [2]] := by
  exact ⟨by decide +kernel, by decide +kernel⟩

/-- C51 fails: with a pattern with a dot in force, writing a key of 128 bytes or more before the dot overflows an array. -/
theorem C51_long_key_violated (k : Bytes) (h : (before k).length ≥ 128) :
    ((run start [.sub 1 (str "*.day,min") false]).bind fun x => step x.1 (.write k)) = none := by
  have : (run start [.sub 1 (str "*.day,min") false]).map Prod.fst = some ⟨[], [(str "*.day,min", ⟨.mulMul, some (str "*"), some (str "day,min"), [1]⟩)]⟩ := by
    decide +kernel
  obtain ⟨x, hx, hs⟩ := Option.map_eq_some_iff.1 this
  rw [hx, Option.bind_some, hs]
  have hh : halves true k ⟨.mulMul, some (str "*"), some (str "day,min"), [1]⟩ = none := if_neg (by omega)
  simp [step, pub, pubMul, unitMatch, hh]

/-- C66 fails here too: a subscription to a subject with nothing before, or behind, its dot crashes the server. -/
theorem C66_empty_half_violated : step start (.sub 1 (str "k.") false) = none ∧ step start (.sub 1 (str ".day") false) = none := by
  exact ⟨by decide +kernel, by decide +kernel⟩

/-- C49 fails for subscriptions: the next owner of the number of a closed connection gets its notifications. -/
theorem C49_subscriptions_violated :
    (run start [.sub 1 (str "k.day") false, .close 1, .write (str "k.day")]).map Prod.snd = some [.reply 1, .nothing, .notified [1]] := by
  decide +kernel

/-- C49: a close changes no subscription at all, whatever the state. -/
theorem C49_close_ignored_violated (s : St) (cid : Int) : step s (.close cid) = some (s, .nothing) := by
  have hr : caseEq (str "reader") (str "reader") = true := by decide +kernel
  simp [step, clear, hr]

/-- C49, for a client that cancels before it closes: afterwards the number gets no notification until it subscribes again. -/
theorem C49_after_unsub_partial (ops post : List Op) (s s' : St) (cid : Int) (hc : Clean (ops ++ .unsub cid :: post))
    (H : Hist (ops ++ .unsub cid :: post) s) (hpost : ∀ p h, Op.sub cid p h ∉ post) (k : Bytes) (hk : CStr k)
    (hkc : 44 ∉ k) (ns : List Int) (hw : step s (.write k) = some (s', .notified ns)) : cid ∉ ns := by
  intro hn
  obtain ⟨p, h, h1, -⟩ := C50_only_subscribers_partial _ s s' H hc k hk hkc ns hw cid hn
  have key : ∀ post : List Op, (∀ p h, Op.sub cid p h ∉ post) → ∀ a : List (Int × Bytes × Bool), (∀ x ∈ a, x.1 ≠ cid) →
      ∀ x ∈ post.foldl (fun a op => match op with
        | .sub c p h => if p = [] then a else a ++ [(c, p, h)]
        | .unsub c => if c = -1 then [] else a.filter fun x => x.1 ≠ c
        | _ => a) a, x.1 ≠ cid := by
    intro post
    induction post with
    | nil => intro _ a ha x hx; exact ha x hx
    | cons op post ih =>
      intro hp a ha
      rw [List.foldl_cons]
      refine ih (fun p h hm => hp p h (List.mem_cons_of_mem _ hm)) _ ?_
      cases op with
      | sub c p h =>
        intro x hx
        dsimp only at hx
        split at hx
        · exact ha x hx
        · rcases List.mem_append.1 hx with hx | hx
          · exact ha x hx
          · simp at hx
            subst hx
            intro e
            exact hp p h (by simp at e; simp [e])
      | unsub c =>
        intro x hx
        dsimp only at hx
        split at hx
        · simp at hx
        · exact ha x (List.mem_filter.1 hx).1
      | write k => exact ha
      | close c => exact ha
  have ha : ∀ x ∈ active (ops ++ [.unsub cid]), x.1 ≠ cid := by
    rw [active_snoc]
    dsimp only
    split
    · simp
    · intro x hx
      simpa using (List.mem_filter.1 hx).2
  have hsplit : ops ++ Op.unsub cid :: post = (ops ++ [.unsub cid]) ++ post := by simp
  rw [hsplit] at h1
  unfold active at h1
  rw [List.foldl_append] at h1
  exact key post hpost _ ha _ h1 rfl

end Sis.Sub
