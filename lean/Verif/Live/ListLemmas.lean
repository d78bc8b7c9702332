import Verif.Live.StreamLemmas
/-
Lemmas about the lists of keys and tables a client is told, and about the commands that are always safe.
-/
namespace Sis.Live

open Sis.Access (str)

theorem asks_half {head : Bool} {l n : Bytes} : asks head l n = true ↔ Sub.Half head (Sub.low l) (Sub.low n) := by
  have hs : l = [42] ↔ Sub.low l = [42] := by
    constructor
    · rintro rfl; decide
    · intro h
      have hl : l.length = 1 := by simpa [Sub.low] using congrArg List.length h
      match l, hl with
      | [c], _ =>
        have : lower c = 42 := by simpa [Sub.low] using h
        rw [(Sub.lower_fix (Or.inl rfl) c).1 this]
  unfold asks Sub.Half Sub.Names
  rw [Bool.or_eq_true, beq_iff_eq, hs, List.any_eq_true]
  refine or_congr Iff.rfl (exists_congr fun it => and_congr Iff.rfl ?_)
  rw [Bool.and_eq_true, bne_iff_ne]
  refine and_congr Iff.rfl ?_
  cases head
  · simp
  · simp

theorem isStar_iff {l : Bytes} (hl : CStr l) : isStar (Sub.part l) = true ↔ Sub.low l = [42] := by
  unfold Sub.part
  by_cases h : l = []
  · subst h; simp [isStar, Sub.low]
  · rw [if_neg h]
    simp only [isStar]
    rw [Sub.caseEq_low hl Sub.cstr_star, Sub.low_star]

theorem subcmp_asks {strict : Bool} {k l : Bytes} (hk : CStr k) (hkc : 44 ∉ k) (hl : CStr l) (hs : isStar (Sub.part l) = false) :
    Sub.subcmp strict k (Sub.part l) = asks (!strict) l k := by
  rw [Bool.eq_iff_iff, asks_half, Sub.Half]
  have h1 : ¬ Sub.low l = [42] := by
    rw [← isStar_iff hl, hs]; decide
  rw [or_iff_right h1]
  unfold Sub.part
  by_cases h : l = []
  · subst h
    simp only [if_true, Sub.subcmp]
    have : Sub.low [] = [] := rfl
    simp [this, Sub.names_nil]
  · rw [if_neg h, Sub.subcmp_spec hk hkc hl]

theorem asks_star {head : Bool} {l n : Bytes} (hl : CStr l) (hs : isStar (Sub.part l) = true) : asks head l n = true := by
  rw [asks_half]
  exact Or.inl ((isStar_iff hl).1 hs)

theorem Name.cstr {n : Bytes} (h : Name n) : CStr n := by
  intro c hc e
  have := (h.2 c hc).1
  rw [e] at this
  exact absurd this (by decide)

theorem Name.comma {n : Bytes} (h : Name n) : 44 ∉ n := fun hc => (h.2 44 hc).2 rfl

theorem trim_name {n : Bytes} (h : Name n) : Sdb.trim (Json.cstrOf n) = n := by
  rw [Json.cstrOf_cstr h.cstr]
  have hd : ∀ l : Bytes, (∀ c ∈ l, 32 < c) → l.dropWhile (· ≤ 32) = l := by
    intro l hl
    cases l with
    | nil => rfl
    | cons c l =>
      rw [List.dropWhile_cons_of_neg]
      have := hl c (List.mem_cons_self ..)
      simpa using this
  unfold Sdb.trim
  rw [hd n.reverse (fun c hc => (h.2 c (List.mem_reverse.1 hc)).1), List.reverse_reverse, hd n fun c hc => (h.2 c hc).1]

theorem pieces_name {n : Bytes} (hn : 44 ∉ n) (x acc : Bytes) : Csv.pieces 44 acc (n ++ x) = Csv.pieces 44 (n.reverse ++ acc) x := by
  induction n generalizing acc with
  | nil => rfl
  | cons c n ih =>
    simp only [List.mem_cons, not_or] at hn
    rw [List.cons_append]
    conv => lhs; unfold Csv.pieces
    rw [if_neg (fun e => hn.1 e.symm), ih hn.2]
    simp

theorem pieces_names : ∀ (names : List Bytes), (∀ n ∈ names, Name n) → Csv.pieces 44 [] (Sdb.joinNames names) = names := by
  intro names
  induction names with
  | nil => intro _; rfl
  | cons n ns ih =>
    intro h
    have hn := h n (List.mem_cons_self ..)
    cases ns with
    | nil =>
      have : Sdb.joinNames [n] = n ++ [] := by simp [Sdb.joinNames]
      rw [this, pieces_name hn.comma, Csv.pieces, if_neg (by simpa using hn.1)]
      simp
    | cons m ms =>
      have : Sdb.joinNames (n :: m :: ms) = n ++ (44 :: Sdb.joinNames (m :: ms)) := rfl
      rw [this, pieces_name hn.comma]
      conv => lhs; unfold Csv.pieces
      rw [if_pos rfl, ih fun k hk => h k (List.mem_cons_of_mem _ hk)]
      simp

theorem load_names {names : List Bytes} (h : ∀ n ∈ names, Name n) : Csv.loadList 44 (Sdb.joinNames names) = names := by
  unfold Csv.loadList
  rw [pieces_names names h]
  have : names.map (fun p => Sdb.trim (Json.cstrOf p)) = names.map id := List.map_congr_left fun n hn => trim_name (h n hn)
  rw [this, List.map_id]

theorem join_intercalate (names : List Bytes) : Sdb.joinNames names = List.intercalate [44] names := by
  induction names with
  | nil => rfl
  | cons n ns ih =>
    cases ns with
    | nil => simp [Sdb.joinNames, List.intercalate]
    | cons m ms =>
      rw [show Sdb.joinNames (n :: m :: ms) = n ++ 44 :: Sdb.joinNames (m :: ms) from rfl, ih]
      simp [List.intercalate]

theorem cstr_keyPart {p : Bytes} (h : CStr p) : CStr (keyPart p) := by
  intro c hc
  exact h c ((List.takeWhile_sublist _).subset hc)

theorem cstr_tabPart {p : Bytes} (h : CStr p) : CStr (tabPart p) := by
  intro c hc
  exact h c ((List.dropWhile_sublist _).subset (List.mem_of_mem_tail hc))

theorem matchKey_spec {p : Bytes} (hp : CStr p) {names : List Bytes} (hn : ∀ n ∈ names, Name n) (hne : names ≠ []) :
    matchKey (Sub.part (Sub.before p)) (List.intercalate [44] names) =
      if (names.filter (asks true (keyPart p))).isEmpty then none
      else some (List.intercalate [44] (names.filter (asks true (keyPart p)))) := by
  have hb : Sub.before p = keyPart p := rfl
  rw [hb]
  unfold matchKey
  by_cases hs : isStar (Sub.part (keyPart p)) = true
  · rw [if_pos hs]
    have : names.filter (asks true (keyPart p)) = names :=
      List.filter_eq_self.2 fun n _ => asks_star (cstr_keyPart hp) hs
    rw [this, if_neg (by simpa using hne)]
  · rw [if_neg hs, ← join_intercalate, load_names hn]
    have hs' : isStar (Sub.part (keyPart p)) = false := by simpa using hs
    have : names.filter (fun k => Sub.subcmp false k (Sub.part (keyPart p))) = names.filter (asks true (keyPart p)) := by
      apply List.filter_congr
      intro n hm
      exact subcmp_asks (hn n hm).cstr (hn n hm).comma (cstr_keyPart hp) hs'
    rw [this]
    cases hf : names.filter (asks true (keyPart p)) with
    | nil => rfl
    | cons a l => exact congrArg some (join_intercalate _)

/-! ### Tables -/

theorem out_key {fmt : Bool} {d : Nat} (ty : Json.Ty) (k k' : Option Bytes) (v : Option Bytes) (cs : List Json.Node) :
    Json.toValue fmt d (.mk ty k v cs) = Json.toValue fmt d (.mk ty k' v cs) := by
  cases ty <;> simp [Json.toValue]

theorem members_keys : ∀ {cs : List Json.Node}, Json.OkMembers cs → ∀ c ∈ cs, ∃ k, c.key = some k ∧ CStr k := by
  intro cs
  induction cs with
  | nil => intro _ c hc; cases hc
  | cons x cs ih =>
    intro h c hc
    obtain ⟨ty, key, value, child⟩ := x
    unfold Json.OkMembers at h
    obtain ⟨⟨k, hk, hok⟩, -, h2⟩ := h
    rcases List.mem_cons.1 hc with rfl | hc
    · refine ⟨k, hk, ?_⟩
      intro b hb e
      have := (hok.2 b hb).1
      rw [e] at this
      exact absurd this (by decide)
    · exact ih h2 c hc

/-- What a description of tables is, for the reader of documents. -/
theorem tables_load {n : Json.Node} {s : Bytes} (h : Tables n s) :
    ∃ t, Json.load s = some (some (Json.root n)) ∧ Json.outputZip n = some t ∧ Json.load t = some (some (Json.root n)) ∧
      Json.outputZip (Json.root n) = some t := by
  obtain ⟨h1, h2, -, h4⟩ := h
  obtain ⟨⟨t1, a1, a2⟩, ⟨t2, b1, b2⟩, -⟩ := Json.C68_roundtrip_partial n h2 (Or.inr h1)
  refine ⟨t2, ?_, b1, b2, ?_⟩
  · rcases h4 with h4 | h4
    · rw [b1] at h4; rw [← Option.some.inj h4]; exact b2
    · rw [a1] at h4; rw [← Option.some.inj h4]; exact a2
  · rw [← b1]
    obtain ⟨ty, k, v, cs⟩ := n
    exact out_key ..

theorem object_text (cs : List Json.Node) : ∃ t, Json.outputZip (.mk .object none none cs) = some t := by
  unfold Json.outputZip Json.toValue
  by_cases h : cs.isEmpty = true
  · simp [h]
  · simp [h]

theorem matchSdbs_spec {p : Bytes} (hp : CStr p) {n : Json.Node} {s t : Bytes} (h : Tables n s) (ht : Json.outputZip n = some t) :
    ∃ x, TabText p n x ∧ matchSdbs (Sub.part (Sub.after p)) t = some x := by
  obtain ⟨t', -, h2, h3, h4⟩ := tables_load h
  rw [ht] at h2
  have h2 := Option.some.inj h2
  subst h2
  obtain ⟨ty, key, value, child⟩ := n
  obtain ⟨g1, g2, g3, -⟩ := h
  have g1 : ty = .object := g1
  subst g1
  unfold Json.Ok at g2
  obtain ⟨rfl, g2⟩ := g2
  have hb : Sub.after p = tabPart p := rfl
  rw [hb]
  unfold matchSdbs TabText
  by_cases hs : isStar (Sub.part (tabPart p)) = true
  · rw [if_pos hs]
    refine ⟨t, ?_, rfl⟩
    have : (Json.Node.mk .object key none child).child.filter (fun c => asks false (tabPart p) (c.key.getD [])) = child :=
      List.filter_eq_self.2 fun n _ => asks_star (cstr_tabPart hp) hs
    rw [this, ← ht]
    exact out_key ..
  · rw [if_neg hs, h3]
    have hs' : isStar (Sub.part (tabPart p)) = false := by simpa using hs
    have : child.filter (keeps (Sub.part (tabPart p))) = child.filter (fun c => asks false (tabPart p) (c.key.getD [])) := by
      apply List.filter_congr
      intro c hc
      obtain ⟨k, hk, hck⟩ := members_keys g2 c hc
      unfold keeps
      rw [hk]
      exact subcmp_asks hck (g3 c hc k hk) (cstr_tabPart hp) hs'
    obtain ⟨x, hx⟩ := object_text (child.filter fun c => asks false (tabPart p) (c.key.getD []))
    refine ⟨x, hx, ?_⟩
    dsimp only [Json.root, Json.Node.ty, Json.Node.value, Json.Node.child, Json.Node.key]
    rw [this]
    exact hx

/-! ### What the service holds after careful commands -/

theorem keysOf_snoc (cmds : List Cmd) (k : Cmd) : keysOf (cmds ++ [k]) = match k with | .setKeys i => i | _ => keysOf cmds := by
  simp only [keysOf, List.foldl_append, List.foldl_cons, List.foldl_nil]
  cases k <;> rfl

theorem tabsOf_snoc (cmds : List Cmd) (k : Cmd) : tabsOf (cmds ++ [k]) = match k with | .setSdbs i => i | _ => tabsOf cmds := by
  simp only [tabsOf, List.foldl_append, List.foldl_cons, List.foldl_nil]
  cases k <;> rfl

/-- The lists the service holds. -/
structure KInv (cmds : List Cmd) (c : Cxt) : Prop where
  keys : c.keys = keysOf cmds
  sdbs : (c.sdbs = .null ∧ tabsOf cmds = none) ∨
    ∃ n s t, tabsOf cmds = some s ∧ Tables n s ∧ Json.outputZip n = some t ∧ c.sdbs = .live t
  work : c.stat = .work → (keysOf cmds).isSome ∧ (tabsOf cmds).isSome

theorem kinv_same {cmds : List Cmd} {c c' : Cxt} {k : Cmd} (K : KInv cmds c) (h1 : c'.keys = c.keys) (h2 : c'.sdbs = c.sdbs)
    (h3 : c'.stat = .work → c.stat = .work) (hk : keysOf (cmds ++ [k]) = keysOf cmds) (ht : tabsOf (cmds ++ [k]) = tabsOf cmds) :
    KInv (cmds ++ [k]) c' :=
  ⟨by rw [h1, hk, K.keys], by rw [h2, ht]; exact K.sdbs, fun h => by rw [hk, ht]; exact K.work (h3 h)⟩

theorem step_of {x : Option (Cxt × List (Int × Msg) × Reply)} {P : Cxt → Prop} (h : ∃ c ms r, x = some (c, ms, r) ∧ P c) :
    ∃ c ms r, x = some (c, ms, r) ∧ P c := h

theorem user_subject {cmds : List Cmd} {c : Cxt} (I : Inv cmds c) (ht : Texts cmds) {u : User} (hu : u ∈ c.users) :
    ∃ p, (u.cid, p) ∈ members cmds ∧ u.keys = Sub.part (Sub.before p) ∧ u.sdbs = Sub.part (Sub.after p) ∧ CStr p := by
  have h : (u.cid, u.keys, u.sdbs) ∈ c.users.map (fun u => (u.cid, u.keys, u.sdbs)) := List.mem_map.2 ⟨u, hu, rfl⟩
  rw [I.users] at h
  obtain ⟨⟨i, p⟩, hm, e⟩ := List.mem_map.1 h
  simp only [Prod.mk.injEq] at e
  obtain ⟨rfl, e2, e3⟩ := e
  refine ⟨p, hm, e2.symm, e3.symm, ?_⟩
  have : ∀ (l : List Cmd) (x : Int × Bytes), x ∈ members l → Cmd.sub x.1 x.2 ∈ l := by
    intro l
    induction l using List.reverseRecOn with
    | nil => intro x h; cases h
    | append_singleton a k ih =>
      intro x h
      rw [members_snoc] at h
      cases k with
      | sub c q =>
        dsimp only at h
        split at h
        · exact List.mem_append_left _ (ih x h)
        · rcases List.mem_append.1 h with h | h
          · exact List.mem_append_left _ (ih x h)
          · rw [List.mem_singleton.1 h]; simp
      | unsub c => exact List.mem_append_left _ (ih x (List.mem_filter.1 h).1)
      | setKeys i => exact List.mem_append_left _ (ih x h)
      | setSdbs i => exact List.mem_append_left _ (ih x h)
      | setOther => exact List.mem_append_left _ (ih x h)
      | start n t => exact List.mem_append_left _ (ih x h)
      | stop => exact List.mem_append_left _ (ih x h)
      | pub s i => exact List.mem_append_left _ (ih x h)
  exact ht _ _ (this cmds _ hm)

theorem openUsers_defined {d k t : Bytes} : ∀ {us : List User}, (∀ u ∈ us, ∃ x, matchSdbs u.sdbs t = some x) →
    ∃ r, openUsers d (some k) (.live t) us = some r := by
  intro us
  induction us with
  | nil => intro _; exact ⟨_, rfl⟩
  | cons u us ih =>
    intro h
    obtain ⟨⟨us1, ms1, n1⟩, hr⟩ := ih fun v hv => h v (List.mem_cons_of_mem _ hv)
    unfold openUsers
    by_cases hu : u.stat = .init
    · rw [if_pos hu]
      obtain ⟨x, hx⟩ := h u (List.mem_cons_self ..)
      simp only [announce, hx, hr, Option.bind_eq_bind, Option.bind_some]
      exact ⟨_, rfl⟩
    · rw [if_neg hu]
      simp only [hr, Option.bind_eq_bind, Option.bind_some]
      exact ⟨_, rfl⟩

theorem openReaders_defined {cmds : List Cmd} {c : Cxt} (I : Inv cmds c) (ht : Texts cmds) {k : Bytes} (hk : c.keys = some k)
    {n : Json.Node} {s t : Bytes} (hT : Tables n s) (hn : Json.outputZip n = some t) (hs : c.sdbs = .live t) :
    ∃ c' ms, openReaders c = some (c', ms) := by
  unfold openReaders
  split
  · exact ⟨_, _, rfl⟩
  · rw [hk, hs]
    obtain ⟨⟨us, ms, m⟩, hr⟩ := openUsers_defined (d := dateText c.date) (k := k) (t := t) (us := c.users) (by
      intro u hu
      obtain ⟨p, -, -, hp, hc⟩ := user_subject I ht hu
      obtain ⟨x, -, hx⟩ := matchSdbs_spec hc hT hn
      exact ⟨x, by rw [hp]; exact hx⟩)
    rw [hr]
    exact ⟨_, _, rfl⟩

theorem sub_defined (s : Sub.St) (cid : Int) (p : Bytes) : ∃ r, Sub.sub s cid p true = some r := by
  have hm : ∃ u, Sub.mkUnit p true = some u := by
    unfold Sub.mkUnit
    split
    · exact ⟨_, rfl⟩
    · split
      · exact ⟨_, rfl⟩
      · split <;> exact ⟨_, rfl⟩
  obtain ⟨u, hu⟩ := hm
  have hn : ∀ m, ∃ r, Sub.notice m cid p true = some r := by
    intro m
    unfold Sub.notice
    split
    · rw [hu]; exact ⟨_, rfl⟩
    · split <;> exact ⟨_, rfl⟩
  unfold Sub.sub
  split
  · exact ⟨_, rfl⟩
  · obtain ⟨r, hr⟩ := hn s.mul
    simp only [Bool.true_or, if_true, hr, Option.map_some]
    exact ⟨_, rfl⟩

/-- A record: whether it is accepted. -/
theorem pub_careful {cmds : List Cmd} {c : Cxt} (I : Inv cmds c) (K : KInv cmds c) (ht : Texts cmds) {s i : Bytes} (hs : s.length < 128) :
    ∃ c' ms r, step c (.pub s i) = some (c', ms, r) ∧ KInv (cmds ++ [.pub s i]) c' ∧
      (r = .ok ↔ started cmds = true ∧ (keysOf cmds).isSome ∧ (tabsOf cmds).isSome) := by
  have hkeep : ∀ c' : Cxt, c'.keys = c.keys → c'.sdbs = c.sdbs → ((keysOf cmds).isSome ∧ (tabsOf cmds).isSome) →
      KInv (cmds ++ [.pub s i]) c' := by
    intro c' h1 h2 h3
    exact ⟨by rw [h1, keysOf_snoc]; exact K.keys, by rw [h2, tabsOf_snoc]; exact K.sdbs, fun _ => by rw [keysOf_snoc, tabsOf_snoc]; exact h3⟩
  have hopen : ∀ c0 : Cxt, Inv cmds c0 → c0.keys = c.keys → c0.sdbs = c.sdbs → ((keysOf cmds).isSome ∧ (tabsOf cmds).isSome) →
      on c0.stat = true → ∃ c' ms, openReaders c0 = some (c', ms) ∧ c'.keys = c.keys ∧ c'.sdbs = c.sdbs := by
    intro c0 I0 h1 h2 h3 hon
    obtain ⟨k, hk⟩ := Option.isSome_iff_exists.1 h3.1
    obtain ⟨x, hx⟩ := Option.isSome_iff_exists.1 h3.2
    rcases K.sdbs with ⟨-, e⟩ | ⟨n, s', t, e1, e2, e3, e4⟩
    · rw [e] at hx; cases hx
    · obtain ⟨c', ms, ho⟩ := openReaders_defined I0 ht (h1.trans (K.keys.trans hk)) e2 e3 (h2.trans e4)
      obtain ⟨-, -, -, a4, a5, -⟩ := openReaders_spec I0 hon ho
      exact ⟨c', ms, ho, a4.trans h1, a5.trans h2⟩
  have hno : readerInit c = some (c, [], false) → (c.stat = .work → False) →
      ¬ (started cmds = true ∧ (keysOf cmds).isSome = true ∧ (tabsOf cmds).isSome = true) →
      ∃ c' ms r, step c (.pub s i) = some (c', ms, r) ∧ KInv (cmds ++ [.pub s i]) c' ∧
      (r = .ok ↔ started cmds = true ∧ (keysOf cmds).isSome ∧ (tabsOf cmds).isSome) := by
    intro h hw hn
    refine ⟨c, [], .error, by simp only [step, pub, h], kinv_same K rfl rfl (fun h => h) (by rw [keysOf_snoc]) (by rw [tabsOf_snoc]), ?_⟩
    exact ⟨fun h => absurd h (by decide), fun h => (hn h).elim⟩
  have hyes : ∀ c0 : Cxt, Inv cmds c0 → c0.keys = c.keys → c0.sdbs = c.sdbs → ((keysOf cmds).isSome ∧ (tabsOf cmds).isSome) →
      on c0.stat = true → readerInit c = (openReaders c0).map (fun x => (x.1, x.2, true)) →
      ∃ c' ms r, step c (.pub s i) = some (c', ms, r) ∧ KInv (cmds ++ [.pub s i]) c' ∧
      (r = .ok ↔ started cmds = true ∧ (keysOf cmds).isSome ∧ (tabsOf cmds).isSome) := by
    intro c0 I0 h1 h2 h3 hon hr
    obtain ⟨c', ms, ho, e1, e2⟩ := hopen c0 I0 h1 h2 h3 hon
    rw [ho] at hr
    simp only [Option.map_some] at hr
    obtain ⟨r, hp⟩ := Sub.pubMul_defined hs c'.subs.mul
    have hps : Sub.pub c'.subs s = some (Sub.pubOne s c'.subs.one ++ r) := by simp only [Sub.pub, hp, Option.map_some]
    refine ⟨c', _, .ok, by simp only [step, pub, hr, hps, Option.map_some]; rfl, hkeep c' e1 e2 h3, ?_⟩
    exact ⟨fun _ => ⟨by rw [← I0.on]; exact hon, h3⟩, fun _ => rfl⟩
  cases hst : c.stat with
  | idle =>
    refine hno (by simp only [readerInit, hst]) (fun h => by rw [hst] at h; cases h) ?_
    rintro ⟨h, -⟩
    rw [← I.on, hst] at h; cases h
  | stop =>
    refine hno (by simp only [readerInit, hst]) (fun h => by rw [hst] at h; cases h) ?_
    rintro ⟨h, -⟩
    rw [← I.on, hst] at h; cases h
  | work =>
    refine hyes c I rfl rfl (K.work hst) (by rw [hst]; rfl) ?_
    simp only [readerInit, hst]
  | init =>
    by_cases hk : c.keys = none ∨ c.sdbs = .null
    · refine hno (by simp only [readerInit, hst, if_pos hk]) (fun h => by rw [hst] at h; cases h) ?_
      rintro ⟨-, h1, h2⟩
      rcases hk with hk | hk
      · rw [← K.keys, hk] at h1; cases h1
      · rcases K.sdbs with ⟨-, e⟩ | ⟨n, s', t, e1, e2, e3, e4⟩
        · rw [e] at h2; cases h2
        · rw [hk] at e4; cases e4
    · have h3 : (keysOf cmds).isSome = true ∧ (tabsOf cmds).isSome = true := by
        constructor
        · rw [← K.keys]
          cases e : c.keys with
          | none => exact absurd (Or.inl e) hk
          | some x => rfl
        · rcases K.sdbs with ⟨e, -⟩ | ⟨n, s', t, e1, -⟩
          · exact absurd (Or.inr e) hk
          · rw [e1]; rfl
      refine hyes { c with stat := .work } (I.stat hst) rfl rfl h3 rfl ?_
      simp only [readerInit, hst, if_neg hk]

theorem careful_step {cmds : List Cmd} {c : Cxt} {k : Cmd} (I : Inv cmds c) (K : KInv cmds c) (ht : Texts cmds) (hk : Careful k) :
    ∃ c' ms r, step c k = some (c', ms, r) ∧ KInv (cmds ++ [k]) c' := by
  cases k with
  | setKeys info =>
    obtain ⟨x, hx⟩ := Option.isSome_iff_exists.1 hk
    subst hx
    refine ⟨{ c with keys := some x }, [], .ok, rfl, ⟨by simp [keysOf_snoc], ?_, ?_⟩⟩
    · rw [tabsOf_snoc]; exact K.sdbs
    · intro h
      rw [keysOf_snoc, tabsOf_snoc]
      exact ⟨rfl, (K.work h).2⟩
  | setSdbs info =>
    obtain ⟨n, s, rfl, hT⟩ := hk
    obtain ⟨t, h1, h2, h3, h4⟩ := tables_load hT
    have hp : c.sdbs ≠ .freed := by
      rcases K.sdbs with ⟨e, -⟩ | ⟨_, _, _, -, -, -, e⟩ <;> rw [e] <;> simp
    refine ⟨{ c with sdbs := .live t }, [], .ok, ?_, ⟨?_, ?_, ?_⟩⟩
    · have : setSdbs c (some s) = some ({ c with sdbs := .live t }, .ok) := by
        unfold setSdbs
        cases e : c.sdbs with
        | freed => exact absurd e hp
        | null => simp only [h1, h4]
        | live x => simp only [h1, h4]
      simp only [step, this, Option.map_some]
    · rw [keysOf_snoc]; exact K.keys
    · exact Or.inr ⟨n, s, t, by rw [tabsOf_snoc], hT, h2, rfl⟩
    · intro h
      rw [keysOf_snoc, tabsOf_snoc]
      exact ⟨(K.work h).1, rfl⟩
  | setOther => exact ⟨_, _, _, rfl, kinv_same K rfl rfl (fun h => h) (by rw [keysOf_snoc]) (by rw [tabsOf_snoc])⟩
  | start n today => exact ⟨_, _, _, rfl, kinv_same K rfl rfl (fun h => by cases h) (by rw [keysOf_snoc]) (by rw [tabsOf_snoc])⟩
  | stop =>
    refine ⟨(stop c).1, (stop c).2.1, (stop c).2.2, rfl, ?_⟩
    unfold stop
    split
    · exact kinv_same K rfl rfl (fun h => h) (by rw [keysOf_snoc]) (by rw [tabsOf_snoc])
    · exact kinv_same K rfl rfl (fun h => by cases h) (by rw [keysOf_snoc]) (by rw [tabsOf_snoc])
  | pub s i =>
    obtain ⟨c', ms, r, h1, h2, -⟩ := pub_careful I K ht (i := i) hk
    exact ⟨c', ms, r, h1, h2⟩
  | sub cid p =>
    obtain ⟨⟨s, n⟩, hs⟩ := sub_defined (userIncr c cid p).subs cid p
    refine ⟨{ userIncr c cid p with subs := s }, [], .num n, by simp only [step, hs, Option.map_some], ?_⟩
    have : (userIncr c cid p).keys = c.keys ∧ (userIncr c cid p).sdbs = c.sdbs ∧ (userIncr c cid p).stat = c.stat := by
      unfold userIncr; split <;> exact ⟨rfl, rfl, rfl⟩
    exact kinv_same K this.1 this.2.1 (fun h => by rw [← this.2.2]; exact h) (by rw [keysOf_snoc]) (by rw [tabsOf_snoc])
  | unsub cid =>
    refine ⟨_, _, _, rfl, ?_⟩
    have : (userDecr c cid).keys = c.keys ∧ (userDecr c cid).sdbs = c.sdbs ∧ (userDecr c cid).stat = c.stat := by
      unfold userDecr; split <;> exact ⟨rfl, rfl, rfl⟩
    exact kinv_same K this.1 this.2.1 (fun h => by rw [← this.2.2]; exact h) (by rw [keysOf_snoc]) (by rw [tabsOf_snoc])

theorem careful_run : ∀ {cmds : List Cmd}, Texts cmds → (∀ k ∈ cmds, Careful k) →
    ∃ c out, run init cmds = some (c, out) ∧ KInv cmds c := by
  intro cmds
  induction cmds using List.reverseRecOn with
  | nil => intro _ _; exact ⟨_, _, rfl, rfl, Or.inl ⟨rfl, rfl⟩, fun h => by cases h⟩
  | append_singleton a k ih =>
    intro ht hc
    obtain ⟨c, out, h1, K⟩ := ih (texts_left ht) fun x hx => hc x (List.mem_append_left _ hx)
    obtain ⟨c', ms, r, h2, K'⟩ := careful_step (run_inv h1) K (texts_left ht) (hc k (by simp))
    refine ⟨c', out ++ ms, ?_, K'⟩
    rw [run_append, h1]
    simp only [run, h2, Option.map_some, List.append_nil]

end Sis.Live
