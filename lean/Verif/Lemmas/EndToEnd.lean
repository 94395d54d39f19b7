/-
The contents told by requests and replies are those of the namespaces.
-/
import Verif.Spec.EndToEnd
import Verif.Props.Answers
import Verif.Props.Isolation
namespace Zdb.Server

theorem name_inj {l : List NsRec} (hn : (l.map (·.conf.name)).Nodup) {a b : NsRec} (ha : a ∈ l) (hb : b ∈ l)
    (h : a.conf.name = b.conf.name) : a = b := by
  induction l with
  | nil => simp at ha
  | cons x l ih =>
    simp only [List.map_cons, List.nodup_cons] at hn
    rcases List.mem_cons.1 ha with rfl | ha' <;> rcases List.mem_cons.1 hb with rfl | hb'
    · rfl
    · exact absurd (List.mem_map.2 ⟨b, hb', h.symm⟩) hn.1
    · exact absurd (List.mem_map.2 ⟨a, ha', h⟩) hn.1
    · exact ih hn.2 ha' hb'

theorem seen_snoc (name k : Bytes) (l : Log) (x : Event × List (Nat × Msg)) :
    seen name k (l ++ [x]) = (seen name k l).next name k x := by
  unfold seen; rw [List.foldl_append]; rfl

/-- The place of clients does not depend on the key that is watched. -/
theorem next_place (name k : Bytes) (s t : Seen) (h : s.place = t.place) (x : Event × List (Nat × Msg)) :
    (s.next name k x).place = (t.next [] [] x).place := by
  unfold Seen.next
  split
  · simp only [h]
  · split
    · simp only [h]
    · split <;> split <;> exact h
    · split <;> split <;> exact h
    · split <;> split <;> exact h
    · exact h
  · exact h

theorem seen_place (name k : Bytes) (l : Log) (fd : Nat) : (seen name k l).place fd = placeOf fd l := by
  have : ∀ (s t : Seen), s.place = t.place → (l.foldl (Seen.next name k) s).place = (l.foldl (Seen.next [] []) t).place := by
    induction l with
    | nil => exact fun s t h => h
    | cons x l ih => exact fun s t h => ih _ _ (next_place name k s t h x)
  exact congrFun (this _ _ rfl) fd

/-- What a request of a client who is not a master does. -/
theorem asked {S : Settings} {n n' : Node} {fd : Nat} {e : Env} {argv : List Bytes} {sent : List (Nat × Msg)} {st : Status}
    (h : request S n fd e argv = .ok n' sent st) {c : Client} (hc : getClient n fd = some c) (hm : c.master = false) :
    (c.ns = none ∧ pick n fd e argv = none ∧ n'.slots = n.slots ∧
      sentTo fd sent = [.reply (.err "Your active namespace is not available anymore (probably removed).")]) ∨
    (commandOf argv = none ∧ pick n fd e argv = none ∧ n'.slots = n.slots) ∨
    ∃ (r : NsRec) (hh : Handler) (i : Nat) (n1 : Node) (c1 : Client) (m : Option Msg), pick n fd e argv = some ⟨c, r, hh, e, argv⟩ ∧ commandOf argv = some hh ∧ c.ns = some r.uid ∧
      nsDeref n r.uid = some r ∧ runHandler S e n { c with executed := some i } r hh argv = .done n1 c1 m st ∧
      n'.slots = n1.slots ∧ getClient n' fd = some c1 ∧ sentTo fd sent = m.toList ∧
      ∃ rest, sent = m.toList.map (fun m => (fd, m)) ++ rest := by
  obtain ⟨c0, hc0, hne, hcase⟩ := request_cases h
  rw [hc] at hc0
  injection hc0 with hc0
  subst hc0
  rcases hcase with ⟨hp, -⟩ | ⟨e', argv', n1, c1, m, hp, hd, rfl, rfl⟩
  · simp [popOwner, hm] at hp
  have hpp := hp
  simp only [popOwner, hm, Bool.false_eq_true, if_false, Option.some.injEq, Prod.mk.injEq] at hpp
  obtain ⟨rfl, rfl⟩ := hpp
  have hsl := (post_rest e fd (putClient n1 fd (some c1)) c1).2.1
  have hsent : sentTo fd (m.toList.map (fun m => (fd, m)) ++ (post e fd (putClient n1 fd (some c1)) c1).2) = m.toList := by
    rw [sentTo_append, post_others, List.append_nil]
    cases m <;> simp [sentTo]
  rcases dispatch_cases hd with ⟨hu, rfl, rfl, -, rfl⟩ | ⟨u, key, rest, hu, rfl, hcase⟩
  · left
    refine ⟨hu, ?_, hsl, ?_⟩
    · unfold pick; rw [hc]; simp only [hp, hu]
    · rw [hsent]; rfl
  · right
    rcases hcase with ⟨hl, rfl, rfl, -, rfl⟩ | ⟨i, r, name, hh, hl, hr, hi, hrun⟩
    · left
      refine ⟨by simp [commandOf, hl], ?_, hsl⟩
      unfold pick; rw [hc]; simp only [hp, hu, hl]
    · right
      have hru := (nsDeref_some hr).2
      exact ⟨r, hh, i, n1, c1, m, pick_of hc hp hu rfl hl hr hi, by simp [commandOf, hl, hi], by rw [hru]; exact hu, by rw [hru]; exact hr,
        hrun, hsl, post_me _ _ _ _, hsent, _, rfl⟩

/-! ### names -/

theorem update_name {n : Node} {br : Branches} {f : NsRec → NsRec} {u : Nat} {x r' : NsRec} (hi : ((recs n).map (·.uid)).Nodup)
    (hx : x ∈ recs n) (h1 : (f x).uid = x.uid) (h2 : (f x).conf.name = x.conf.name)
    (hu' : nsDeref (nsUpdate { n with br := br } x.uid f) u = some r') :
    ∃ r, nsDeref n u = some r ∧ r'.conf.name = r.conf.name ∧ ((f x).store = x.store → r'.store = r.store) := by
  obtain ⟨hm, hru⟩ := nsDeref_some hu'
  rcases mem_recs_update.1 hm with ⟨y, hy, hyx, rfl⟩ | ⟨hy, hne⟩
  · have : y = x := uid_inj hi hy hx hyx
    subst this
    exact ⟨y, by rw [← hru, h1]; exact nsDeref_mem hi hx, h2, fun h => h⟩
  · exact ⟨r', by rw [← hru]; exact nsDeref_mem hi hy, rfl, fun _ => rfl⟩

/-- The namespaces after a handler: those before, under the same names, and the one just made. -/
theorem eff_names {S : Settings} {e : Env} {n n1 : Node} {c : Client} {r : NsRec} {argv : List Bytes} {h : Handler} {m : Option Msg}
    (hi : NodeInv S n) (hcfg : S.cfg = some .user) (hr : r ∈ recs n) (he : NodeEff S e n c r argv h n1 m) {u : Nat} {r' : NsRec}
    (hu' : nsDeref n1 u = some r') :
    (∃ r0, nsDeref n u = some r0 ∧ r'.conf.name = r0.conf.name ∧ (h = .nsset → r'.store = r0.store)) ∨
    (h = .nsnew ∧ nsArg argv = .ok r'.conf.name ∧ r'.store = freshStore .user ∧ m = some (.reply .ok) ∧ u = e.uid) := by
  cases he with
  | same h m hd hq => exact Or.inl ⟨r', hu', rfl, fun _ => rfl⟩
  | ds d br s rep hd hc' =>
    obtain ⟨r0, h1, h2, -⟩ := update_name hi.uids hr (f := fun r => { r with store := s }) rfl rfl hu'
    exact Or.inl ⟨r0, h1, h2, fun h => absurd h (by simp)⟩
  | nsnew name br s ha hl hn hv' hf h0 hk hs =>
    obtain ⟨hm, hru⟩ := nsDeref_some hu'
    rcases List.mem_cons.1 ((pushSlot_perm _ _).mem_iff.1 hm) with rfl | hm
    · right
      rw [freshNs_eq, hcfg] at hs
      injection hs with hs1 hs2
      exact ⟨rfl, hn, hs2.symm, rfl, hru.symm⟩
    · left
      exact ⟨r', by rw [← hru]; exact nsDeref_mem hi.uids hm, rfl, fun h => absurd h (by simp)⟩
  | nsdel name x ha hl hn hd hx hc' =>
    obtain ⟨hm, hru⟩ := nsDeref_some hu'
    change r' ∈ (kickSlot x.uid n.slots).filterMap id at hm
    rw [kickSlot_filterMap] at hm
    exact Or.inl ⟨r', by rw [← hru]; exact nsDeref_mem hi.uids (List.mem_of_mem_eraseP hm), rfl, fun h => absurd h (by simp)⟩
  | nsset a b prop value target x y ha hargs hv' hn hx hp =>
    have hok := nsProperty_ok (mem_cstr value) (Nat.le_trans (cstr_length_le value) hv') hp
    obtain ⟨r0, h1, h2, h3⟩ := update_name (br := n.br) hi.uids (nsGet_some hx).1 (f := fun _ => commitNs y) hok.uid hok.name hu'
    refine Or.inl ⟨r0, h1, h2, fun _ => h3 ?_⟩
    rcases hok.store with h | ⟨h, -⟩
    · exact h
    · rw [hcfg] at h; simp at h
  | reload name x br s ha hl hn hx hr' =>
    obtain ⟨r0, h1, h2, -⟩ := update_name hi.uids (nsGet_some hx).1 (f := fun r => { r with store := s }) rfl rfl hu'
    exact Or.inl ⟨r0, h1, h2, fun h => absurd h (by simp)⟩
  | flush br s hp hw hr' =>
    obtain ⟨r0, h1, h2, -⟩ := update_name hi.uids hr (f := fun r => { r with store := s }) rfl rfl hu'
    exact Or.inl ⟨r0, h1, h2, fun h => absurd h (by simp)⟩

/-- The namespaces after an event. -/
theorem ns_step {S : Settings} {n n' : Node} (hi : NodeInv S n) (hcfg : S.cfg = some .user) {ev : Event}
    {sent : List (Nat × Msg)} {st : Status} (hg : Guard S n ev) (hs : nodeStep S n ev = .ok n' sent st)
    (hmas : ∀ fd c, getClient n fd = some c → c.master = false) {u : Nat} {r' : NsRec} (hu' : nsDeref n' u = some r') :
    (∃ r, nsDeref n u = some r ∧ r'.conf.name = r.conf.name ∧ ¬ Switches n u ev n') ∨
    (∃ fd e w a rest, ev = .request fd e (w :: a :: rest) ∧ commandOf (w :: a :: rest) = some .nsnew ∧ replyTo fd sent = .ok ∧
      r'.conf.name = cstr a ∧ r'.store = freshStore .user ∧ nsDeref n u = none) := by
  have same : n'.slots = n.slots → (∃ r, nsDeref n u = some r ∧ r'.conf.name = r.conf.name ∧ ¬ Switches n u ev n') := by
    intro hsl
    rw [nsDeref_congr hsl] at hu'
    refine ⟨r', hu', rfl, ?_⟩
    unfold Switches
    cases ev with
    | request fd e argv =>
      rintro ⟨p, -, -, hne⟩
      exact hne (by unfold storeOf; rw [nsDeref_congr hsl])
    | _ => exact fun h => h
  cases ev with
  | connect fd =>
    simp only [nodeStep] at hs; injection hs with h1 _ _; subst h1; exact Or.inl (same rfl)
  | disconnect fd =>
    simp only [nodeStep] at hs; injection hs with h1 _ _; subst h1; exact Or.inl (same rfl)
  | tick us =>
    simp only [nodeStep] at hs; injection hs with h1 _ _; subst h1; exact Or.inl (same rfl)
  | request fd e argv =>
    have hs' : request S n fd e argv = .ok n' sent st := hs
    obtain ⟨c, hc, -⟩ := request_cases hs'
    rcases asked hs' hc (hmas fd c hc) with ⟨-, hp, hsl, -⟩ | ⟨-, hp, hsl⟩ | ⟨r, hh, i, n1, c1, m, hp, hcmd, hns, hr, hrun, hsl, -, hsent, -⟩
    · exact Or.inl (same hsl)
    · exact Or.inl (same hsl)
    · rw [nsDeref_congr hsl] at hu'
      rcases eff_names hi hcfg (nsDeref_some hr).1 (runHandler_eff hrun) hu' with ⟨r0, h1, h2, h3⟩ | ⟨rfl, h1, h2, rfl, hue⟩
      · left
        refine ⟨r0, h1, h2, ?_⟩
        rintro ⟨p, hp', hns', hne⟩
        rw [hp] at hp'
        injection hp' with hp'
        subst hp'
        refine hne ?_
        unfold storeOf
        rw [nsDeref_congr hsl, hu', h1, Option.map_some, Option.map_some, h3 hns']
      · right
        unfold nsArg at h1
        match argv, h1, hcmd with
        | w :: a :: rest, h1, hcmd =>
          refine ⟨fd, e, w, a, rest, rfl, hcmd, ?_, ?_, h2, ?_⟩
          · unfold replyTo; rw [hsent]; rfl
          · simp only [List.getElem?_cons_succ, List.getElem?_cons_zero] at h1
            split at h1
            · exact absurd h1 (by simp)
            · injection h1 with h1; exact h1.symm
          · cases hx : nsDeref n u with
            | none => rfl
            | some x => exact absurd ((nsDeref_some hx).2.trans hue) (hg.1 x (nsDeref_some hx).1)
        | [], h1, _ => simp at h1
        | [w], h1, _ => simp at h1
  | rotate v =>
    simp only [nodeStep] at hs
    injection hs with h1 _ _
    subst h1
    rw [nsDeref_update _ _ _ (fun r => { r with store := jump r.store }) (fun _ => rfl)] at hu'
    obtain ⟨r, hr, rfl⟩ := Option.map_eq_some_iff.1 hu'
    refine Or.inl ⟨r, hr, ?_, fun h => h⟩
    split <;> rfl
  | restart order =>
    simp only [nodeStep] at hs
    cases hr : restartNode S n order with
    | none => rw [hr] at hs; exact absurd hs (by simp)
    | some n1 =>
      rw [hr] at hs
      injection hs with h1 _ _
      subst h1
      obtain ⟨-, -, hall⟩ := hi.restart hg hr
      obtain ⟨r, hrm, hru, _, _, conf, -, -, -, hd, hcf⟩ := hall r' (nsDeref_some hu').1
      refine Or.inl ⟨r, ?_, ?_, fun h => h⟩
      · rw [← (nsDeref_some hu').2, hru]; exact nsDeref_mem hi.uids hrm
      · have := loadDesc_name hd
        rw [hcf]
        split
        · exact this
        · exact this

/-! ### places -/

theorem select_done {S : Settings} {e : Env} {n n1 : Node} {c c1 : Client} {r : NsRec} {argv : List Bytes} {m : Option Msg} {st : Status}
    (h : runHandler S e n c r .select argv = .done n1 c1 m st) :
    (c1 = c ∧ ∃ s, m = errMsg s) ∨
    ∃ w a rest x, argv = w :: a :: rest ∧ m = some (.reply .ok) ∧ x ∈ recs n ∧ x.conf.name = cstr a ∧ c1.ns = some x.uid := by
  simp only [runHandler, cmdSelect] at h
  cases hn : nsArg argv with
  | error s => rw [hn] at h; exact Or.inl ⟨(say_inj h).2.1, s, (say_inj h).2.2.1⟩
  | ok name =>
    rw [hn] at h
    simp only at h
    cases hx : nsGet n name with
    | none => rw [hx] at h; exact Or.inl ⟨(say_inj h).2.1, _, (say_inj h).2.2.1⟩
    | some x =>
      rw [hx] at h
      simp only at h
      cases ha : accessOf S c x.conf argv with
      | error s => rw [ha] at h; exact Or.inl ⟨(say_inj h).2.1, s, (say_inj h).2.2.1⟩
      | ok w =>
        rw [ha] at h
        obtain ⟨-, rfl, rfl, -⟩ := say_inj h
        right
        unfold nsArg at hn
        match argv, hn with
        | w :: a :: rest, hn =>
          simp only [List.getElem?_cons_succ, List.getElem?_cons_zero] at hn
          split at hn
          · exact absurd hn (by simp)
          · injection hn with hn
            exact ⟨w, a, rest, x, rfl, rfl, (nsGet_some hx).1, by rw [hn]; exact (nsGet_some hx).2, rfl⟩
        | [], hn => simp at hn
        | [w], hn => simp at hn

theorem client_ns {S : Settings} {e : Env} {n n1 : Node} {c c1 : Client} {r : NsRec} {h : Handler} {argv : List Bytes} {m : Option Msg}
    {st : Status} (hr : runHandler S e n c r h argv = .done n1 c1 m st) (hh : h ≠ .select) : c1.ns = c.ns := by
  have hce := runHandler_client hr
  cases hce <;> first | rfl | exact absurd rfl hh

theorem placeOf_snoc (fd : Nat) (l : Log) (x : Event × List (Nat × Msg)) :
    placeOf fd (l ++ [x]) = ((seen [] [] l).next [] [] x).place fd := by
  unfold placeOf; rw [seen_snoc]

theorem place_other {fd : Nat} {l : Log} {ev : Event} (hc : ev ≠ .connect fd) (hr : ∀ e argv, ev ≠ .request fd e argv)
    (sent : List (Nat × Msg)) : placeOf fd (l ++ [(ev, sent)]) = placeOf fd l := by
  rw [placeOf_snoc]
  unfold Seen.next placeOf
  cases ev with
  | connect f =>
    have : fd ≠ f := fun h => hc (by rw [h])
    simp only [if_neg this]
  | request f e argv =>
    have : fd ≠ f := fun h => hr e argv (by rw [h])
    simp only
    split
    · simp only [if_neg this]
    · split <;> rfl
    · split <;> rfl
    · split <;> rfl
    · rfl
  | _ => rfl

theorem place_same {fd : Nat} {l : Log} {e : Env} {argv : List Bytes} {sent : List (Nat × Msg)}
    (h : commandOf argv = some .select → ∃ s, replyTo fd sent = .err s) :
    placeOf fd (l ++ [(.request fd e argv, sent)]) = placeOf fd l := by
  rw [placeOf_snoc]
  unfold Seen.next placeOf
  simp only
  split
  · rename_i h3 h1
    obtain ⟨s, hs⟩ := h h1
    rw [hs] at h3; simp at h3
  · split <;> rfl
  · split <;> rfl
  · split <;> rfl
  · rfl

/-- What is kept along an execution. -/
structure Obs (S : Settings) (l : Log) (n : Node) : Prop where
  free : ∀ fd c, getClient n fd = some c → c.master = false
  place : ∀ fd c u r, getClient n fd = some c → c.ns = some u → nsDeref n u = some r → r.conf.name = placeOf fd l
  life : ∀ u r, nsDeref n u = some r → ∃ nc l' tr, Reachable S nc ∧ storeOf nc u = some (freshStore .user) ∧
    Life S u nc l' tr n ∧ tr.length ≤ 3 * l.length ∧ ∀ k, lastWrite k tr = stored r.conf.name k l

theorem Obs.place_step {S : Settings} {n n' : Node} {l : Log} (h : Obs S l n) (hi : NodeInv S n) (hcfg : S.cfg = some .user)
    {ev : Event} {sent : List (Nat × Msg)} {st : Status} (hg : Guard S n ev) (hs : nodeStep S n ev = .ok n' sent st)
    {fd : Nat} {c' : Client} {u : Nat} {r' : NsRec} (hc' : getClient n' fd = some c') (hu : c'.ns = some u)
    (hr' : nsDeref n' u = some r') : r'.conf.name = placeOf fd (l ++ [(ev, sent)]) := by
  have hname : ∀ r, nsDeref n u = some r → r'.conf.name = r.conf.name := by
    intro r hr
    rcases ns_step hi hcfg hg hs h.free hr' with ⟨r0, h1, h2, -⟩ | ⟨_, _, _, _, _, _, _, _, _, _, hno⟩
    · rw [hr] at h1; injection h1 with h1; rw [h1]; exact h2
    · rw [hr] at hno; simp at hno
  have hkeep : ∀ c, getClient n fd = some c → c'.ns = c.ns → r'.conf.name = placeOf fd l := by
    intro c hc hns
    rw [hns] at hu
    obtain ⟨r, hr, hru⟩ := hi.attached fd c u hc hu
    have hd : nsDeref n u = some r := by rw [← hru]; exact nsDeref_mem hi.uids hr
    rw [hname r hd]
    exact h.place fd c u r hc hu hd
  by_cases hcon : ev = .connect fd
  · subst hcon
    simp only [nodeStep] at hs
    injection hs with h1 _ _
    subst h1
    rw [getClient_put, if_pos rfl] at hc'
    injection hc' with hc'
    subst hc'
    obtain ⟨d, l0, hl, hd⟩ := hi.head
    simp only [newClient, hl, Option.some.injEq] at hu
    have hdm : d ∈ recs n := mem_recs.2 (by rw [hl]; exact List.mem_cons_self ..)
    rw [hname d (by rw [← hu]; exact nsDeref_mem hi.uids hdm), hd, placeOf_snoc]
    simp [Seen.next]
  by_cases hreq : ∃ e argv, ev = .request fd e argv
  · obtain ⟨e, argv, rfl⟩ := hreq
    have hs' : request S n fd e argv = .ok n' sent st := hs
    obtain ⟨c, hc, -⟩ := request_cases hs'
    have hby : pick n fd e argv = none → r'.conf.name = placeOf fd l := by
      intro hp
      rcases client_step hs hc' with ⟨hh, -⟩ | ⟨c0, hc0, ⟨e1, argv1, p, i, m, n1, rest, h1, h2, -⟩ | hby⟩
      · exact absurd hh hcon
      · injection h1 with _ h1 h3
        rw [← h1, ← h3, hp] at h2; simp at h2
      · rcases hby.ns with h1 | h1
        · exact hkeep c0 hc0 h1
        · rw [h1] at hu; simp at hu
    rcases asked hs' hc (h.free fd c hc) with ⟨-, hp, -, hrep⟩ | ⟨hcmd, hp, -⟩ | ⟨r, hh, i, n1, c1, m, hp, hcmd, hns, hr, hrun, hsl, hc1, hsent, -⟩
    · rw [place_same (fun _ => ⟨_, by unfold replyTo; rw [hrep]⟩)]; exact hby hp
    · rw [place_same (fun hx => by rw [hcmd] at hx; simp at hx)]; exact hby hp
    · rw [hc'] at hc1
      injection hc1 with hc1
      subst hc1
      by_cases hsel : hh = .select
      · subst hsel
        rcases select_done hrun with ⟨rfl, s, rfl⟩ | ⟨w, a, rest, x, rfl, rfl, hx, hxn, hxu⟩
        · rw [place_same (fun _ => ⟨s, by unfold replyTo; rw [hsent]; rfl⟩)]
          exact hkeep c hc rfl
        · rw [hu] at hxu
          injection hxu with hxu
          rw [hname x (by rw [hxu]; exact nsDeref_mem hi.uids hx), hxn, placeOf_snoc]
          have hrep : replyTo fd sent = .ok := by unfold replyTo; rw [hsent]; rfl
          simp [Seen.next, hcmd, hrep, Reply.ok]
      · rw [place_same (fun hx => by rw [hcmd] at hx; injection hx with hx; exact absurd hx hsel)]
        exact hkeep c hc (by have := client_ns hrun hsel; exact this)
  · rw [place_other hcon (fun e argv hh => hreq ⟨e, argv, hh⟩)]
    rcases client_step hs hc' with ⟨hh, -⟩ | ⟨c0, hc0, ⟨e1, argv1, p, i, m, n1, rest, h1, h2, -⟩ | hby⟩
    · exact absurd hh hcon
    · exact absurd ⟨e1, argv1, h1⟩ hreq
    · rcases hby.ns with h1 | h1
      · exact hkeep c0 hc0 h1
      · rw [h1] at hu; simp at hu

/-! ### contents -/

theorem sentTo_replyOf {fd : Nat} {m : Option Msg} {sent rest : List (Nat × Msg)} {r : Reply} (hm : m = some (.reply r))
    (h1 : sentTo fd sent = m.toList) (h2 : sent = m.toList.map (fun m => (fd, m)) ++ rest) :
    replyOf sent = r ∧ replyTo fd sent = r := by
  subst hm
  refine ⟨by rw [h2]; rfl, by unfold replyTo; rw [h1]; rfl⟩

theorem next_value_same {name k : Bytes} {s : Seen} {ev : Event} {sent : List (Nat × Msg)}
    (h : ∀ fd e argv, ev = .request fd e argv → (commandOf argv = none ∨ (∃ s, replyTo fd sent = .err s) ∨
      ∃ hh, commandOf argv = some hh ∧ hh ≠ .nsnew ∧ hh ≠ .ds .set ∧ hh ≠ .ds .del)) :
    (s.next name k (ev, sent)).value = s.value := by
  unfold Seen.next
  cases ev with
  | request fd e argv =>
    simp only
    split
    · rfl
    all_goals first | rfl | (rename_i h2 h1; exfalso; revert h1 h2; rcases h fd e _ rfl with h | ⟨_, h⟩ | ⟨hh, h, h3, h4, h5⟩ <;> simp_all)
  | _ => rfl

theorem viewRequest_other {S : Settings} {u : Nat} {n : Node} {sent : List (Nat × Msg)} {p : Picked} (h : ∀ d, p.h ≠ .ds d) (k : Bytes) :
    writeOf k (viewRequest S u n sent (some p)) = none := by
  obtain ⟨c, r, hh, e, argv⟩ := p
  unfold viewRequest
  cases hh with
  | ds d => exact absurd rfl (h d)
  | _ => simp only; split <;> rfl

theorem Obs.value_step {S : Settings} {n n' : Node} {l : Log} (h : Obs S l n) (hi : NodeInv S n)
    {ev : Event} {sent : List (Nat × Msg)} {st : Status} (hs : nodeStep S n ev = .ok n' sent st)
    {u : Nat} {r : NsRec} (hr : nsDeref n u = some r) (k : Bytes) :
    (view S u n sent ev).foldl (fun a x => (writeOf k x).getD a) (stored r.conf.name k l) = stored r.conf.name k (l ++ [(ev, sent)]) := by
  have hst : stored r.conf.name k (l ++ [(ev, sent)]) = ((seen r.conf.name k l).next r.conf.name k (ev, sent)).value := by
    unfold stored; rw [seen_snoc]
  rw [hst]
  have none_step : ∀ x : NsEvent × Reply, writeOf k x = none → ∀ a : Option Bytes,
      [x].foldl (fun a x => (writeOf k x).getD a) a = a := by
    intro x hx a; simp [hx]
  cases ev with
  | request fd e argv =>
    have hs' : request S n fd e argv = .ok n' sent st := hs
    obtain ⟨c, hc, -⟩ := request_cases hs'
    simp only [view]
    rcases asked hs' hc (h.free fd c hc) with ⟨-, hp, -, hrep⟩ | ⟨hcmd, hp, -⟩ | ⟨x, hh, i, n1, c1, m, hp, hcmd, hns, hx, hrun, hsl, hc1, hsent, rest, hsent'⟩
    · rw [hp, none_step _ rfl, next_value_same]
      · rfl
      · rintro _ _ _ he; injection he with h1 h2 h3; subst h1 h2 h3; exact Or.inr (Or.inl ⟨_, by unfold replyTo; rw [hrep]⟩)
    · rw [hp, none_step _ rfl, next_value_same]
      · rfl
      · rintro _ _ _ he; injection he with h1 h2 h3; subst h1 h2 h3; exact Or.inl hcmd
    · rw [hp]
      have he := runHandler_eff hrun
      by_cases hds : ∃ d, hh = .ds d
      · obtain ⟨d, rfl⟩ := hds
        have hrep : ∃ rep, m = some (.reply rep) := by
          generalize hq : Handler.ds d = q at he
          cases he with
          | same h m hd hq' => exact absurd hq.symm (hd d)
          | ds d br s rep hd hc => exact ⟨rep, rfl⟩
          | _ => simp at hq
        obtain ⟨rep, hm⟩ := hrep
        obtain ⟨e1, e2⟩ := sentTo_replyOf hm hsent hsent'
        have hplace : (seen r.conf.name k l).place fd = x.conf.name := by
          rw [seen_place]; exact (h.place fd c _ x hc hns hx).symm
        have hiff : x.uid = u ↔ x.conf.name = r.conf.name := by
          constructor
          · rintro rfl; rw [hx] at hr; injection hr with hr; rw [hr]
          · intro hn
            rw [name_inj hi.names (nsDeref_some hx).1 (nsDeref_some hr).1 hn]
            exact (nsDeref_some hr).2
        simp only [viewRequest, List.foldl_cons, List.foldl_nil, e1]
        unfold Seen.next
        simp only [hcmd, e2, hplace, hiff]
        by_cases hu : x.conf.name = r.conf.name
        · simp only [if_pos hu, hu, true_and]
          cases d with
          | set =>
            match argv, rep with
            | _ :: k' :: p :: _, .bulk _ => by_cases hk : k' = k <;> simp [writeOf, hk, stored]
            | [], _ => rfl
            | [_], _ => rfl
            | [_, _], _ => rfl
            | _ :: _ :: _ :: _, .nil => rfl
            | _ :: _ :: _ :: _, .simple _ => rfl
            | _ :: _ :: _ :: _, .err _ => rfl
            | _ :: _ :: _ :: _, .int _ => rfl
            | _ :: _ :: _ :: _, .arr _ => rfl
            | _ :: _ :: _ :: _, .crash => rfl
          | del =>
            match argv, rep with
            | _ :: k' :: _, .simple _ => by_cases hk : k' = k <;> simp [writeOf, hk, stored]
            | [], _ => rfl
            | [_], _ => rfl
            | _ :: _ :: _, .nil => rfl
            | _ :: _ :: _, .bulk _ => rfl
            | _ :: _ :: _, .err _ => rfl
            | _ :: _ :: _, .int _ => rfl
            | _ :: _ :: _, .arr _ => rfl
            | _ :: _ :: _, .crash => rfl
          | _ => rfl
        · simp only [if_neg hu, hu, false_and, if_false]
          have : writeOf k (.foreign, Reply.nil) = none := rfl
          rw [this, Option.getD_none]
          split <;> first | rfl | (split <;> rfl) | skip
          all_goals (exfalso; simp_all)
      · rw [none_step _ (viewRequest_other (fun d hd => hds ⟨d, hd⟩) k)]
        by_cases hnew : hh = .nsnew
        · subst hnew
          generalize hq : Handler.nsnew = q at he
          cases he with
          | same h m hd hq' =>
            rw [next_value_same]
            · rfl
            · rintro _ _ _ he; injection he with h1 h2 h3; subst h1 h2 h3
              obtain ⟨s, rfl⟩ := hq' (by rw [← hq]; rfl)
              exact Or.inr (Or.inl ⟨s, by unfold replyTo; rw [hsent]; rfl⟩)
          | nsnew name br s ha hl hn hv' hf h0 hk hs =>
            have hne : name ≠ r.conf.name := by
              rintro rfl
              obtain ⟨d, l0, hl, -⟩ := hi.head
              unfold nsGet at hf
              rw [nsIter_recs hl] at hf
              have := List.find?_eq_none.1 hf r (nsDeref_some hr).1
              simp at this
            unfold Seen.next
            simp only [hcmd]
            split
            · rfl
            · rename_i a _ _ _ _ _ _ _
              rw [if_neg]
              · rfl
              · intro hh
                unfold nsArg at hn
                simp only [List.getElem?_cons_succ, List.getElem?_cons_zero] at hn
                split at hn
                · exact absurd hn (by simp)
                · injection hn with hn; exact hne (by rw [← hn, hh])
            · rename_i hx _; simp at hx
            · rename_i hx _; simp at hx
            · rfl
          | _ => simp at hq
        · rw [next_value_same]
          · rfl
          · rintro _ _ _ he; injection he with h1 h2 h3; subst h1 h2 h3
            exact Or.inr (Or.inr ⟨hh, hcmd, hnew, fun hx => hds ⟨_, hx⟩, fun hx => hds ⟨_, hx⟩⟩)
  | rotate v =>
    rw [next_value_same (by simp)]
    simp only [view]
    rw [none_step _ (by split <;> rfl)]; rfl
  | restart order => rfl
  | connect fd => rfl
  | disconnect fd => rfl
  | tick us => rfl

/-! ### executions -/

theorem view_length (S : Settings) (u : Nat) (n : Node) (sent : List (Nat × Msg)) (ev : Event) : (view S u n sent ev).length ≤ 3 := by
  cases ev <;> simp [view]

theorem Obs.step {S : Settings} {n n' : Node} {l : Log} (h : Obs S l n) (hn : Reachable S n) (hcfg : S.cfg = some .user)
    {ev : Event} {sent : List (Nat × Msg)} {st : Status} (hg : Guard S n ev) (hf : ∀ u, Fair n u ev)
    (hm : ∀ fd e argv, ev = .request fd e argv → Without wordMaster argv)
    (hs : nodeStep S n ev = .ok n' sent st) : Obs S (l ++ [(ev, sent)]) n' := by
  have hi := hn.inv
  refine ⟨?_, fun fd c' u r' hc' hu hr' => h.place_step hi hcfg hg hs hc' hu hr', ?_⟩
  · intro fd c' hc'
    rcases client_event hs hc' with ⟨-, rfl⟩ | ⟨-, c, hc, ⟨e, argv, m, rfl, -, own⟩ | ⟨-, hmas, -⟩⟩
    · rfl
    · exact (own.master (hm fd e argv rfl)).trans (h.free fd c hc)
    · exact hmas.trans (h.free fd c hc)
  · intro u r' hr'
    rcases ns_step hi hcfg hg hs h.free hr' with ⟨r, h1, h2, h3⟩ | ⟨fd, e, w, a, rest, rfl, hcmd, hrep, hnm, hst, -⟩
    · obtain ⟨nc, l', tr, g1, g2, g3, g4, g5⟩ := h.life u r h1
      refine ⟨nc, l' ++ [(ev, sent)], tr ++ view S u n sent ev, g1, g2, g3.snoc hg (hf u) hs h3 (by rw [hr']; rfl), ?_, ?_⟩
      · have := view_length S u n sent ev
        simp only [List.length_append, List.length_singleton]
        omega
      · intro k
        rw [h2, ← h.value_step hi hs h1 k, ← g5 k]
        unfold lastWrite
        rw [List.foldl_append]
    · refine ⟨n', [], [], ?_, by unfold storeOf; rw [hr', Option.map_some, hst], .nil _ (by rw [hr']; rfl), by simp, ?_⟩
      · obtain ⟨n0, l0, k1, k2⟩ := hn
        exact ⟨n0, _, k1, k2.append (.cons hg hs (.nil _))⟩
      · intro k
        unfold stored
        rw [seen_snoc, hnm]
        simp [Seen.next, hcmd, hrep, Reply.ok, lastWrite]

theorem Obs.start {S : Settings} {n : Node} (h : Started S n) (hcfg : S.cfg = some .user) : Obs S [] n := by
  refine ⟨fun fd c hc => by rw [Started.noClient h] at hc; simp at hc, fun fd c _ _ hc => by rw [Started.noClient h] at hc; simp at hc, ?_⟩
  intro u r hr
  refine ⟨n, [], [], ⟨n, [], h, .nil _⟩, ?_, .nil _ (by rw [hr]; rfl), by simp, fun k => rfl⟩
  unfold storeOf
  rw [hr, Option.map_some]
  obtain ⟨v, hb⟩ := h
  obtain ⟨-, -, x, l, -, hsl, hall⟩ := boot_inv rfl (by simp) (by simp) (by
    intro x hx
    simp only [List.mem_singleton] at hx
    subst hx
    exact ⟨⟨.user, Or.inl hcfg⟩, Or.inl rfl, Or.inl rfl⟩) hb
  cases hall with
  | cons h1 h2 =>
    cases h2
    have hm := (nsDeref_some hr).1
    unfold recs at hm
    rw [hsl] at hm
    simp only [List.map_nil, List.filterMap_cons, List.filterMap_nil, id, List.mem_singleton] at hm
    obtain ⟨b1, b2, k1, -⟩ := h1.store
    have : freshNs S.cfg b1 v = .ok b2 x.store := k1
    rw [freshNs_eq, hcfg] at this
    injection this with _ this
    rw [hm, ← this]; rfl

/-! ### namespaces which are neither frozen nor removed -/

theorem eff_lock {S : Settings} {e : Env} {n n1 : Node} {c : Client} {r : NsRec} {argv : List Bytes} {h : Handler} {m : Option Msg}
    (he : NodeEff S e n c r argv h n1 m) (hns : h ≠ .nsset) (hall : ∀ x ∈ recs n, x.conf.lock = .unlocked) :
    ∀ x ∈ recs n1, x.conf.lock = .unlocked := by
  have upd : ∀ (br : Branches) (v : Nat) (s : Store), ∀ x ∈ recs (nsUpdate { n with br := br } v (fun r => { r with store := s })), x.conf.lock = .unlocked := by
    intro br v s x hx
    rcases mem_recs_update.1 hx with ⟨y, hy, -, rfl⟩ | ⟨hy, -⟩
    · exact hall y hy
    · exact hall x hy
  cases he with
  | same h m hd hq => exact hall
  | ds d br s rep hd hc' => exact upd br _ s
  | nsnew name br s ha hl hn hv' hf h0 hk hs =>
    intro x hx
    rcases List.mem_cons.1 ((pushSlot_perm _ _).mem_iff.1 hx) with rfl | hx
    · rfl
    · exact hall x hx
  | nsdel name x ha hl hn hd hx hc' =>
    intro y hy
    change y ∈ (kickSlot x.uid n.slots).filterMap id at hy
    rw [kickSlot_filterMap] at hy
    exact hall y (List.mem_of_mem_eraseP hy)
  | nsset a b prop value target x y ha hargs hv' hn hx hp => exact absurd rfl hns
  | reload name x br s ha hl hn hx hr' => exact upd br _ s
  | flush br s hp hw hr' => exact upd br _ s

theorem eff_clients {S : Settings} {e : Env} {n n1 : Node} {c : Client} {r : NsRec} {argv : List Bytes} {h : Handler} {m : Option Msg}
    (he : NodeEff S e n c r argv h n1 m) (hnd : h ≠ .nsdel) : n1.clients = n.clients := by
  cases he <;> first | rfl | exact absurd rfl hnd

theorem loadDesc_lock {name desc : Bytes} {c : NsConf} {f : Bytes} (h : loadDesc name desc = some (c, f)) : c.lock = .unlocked := by
  unfold loadDesc at h
  simp only at h
  split at h
  · simp only [Option.some.injEq, Prod.mk.injEq] at h; rw [← h.1]; rfl
  · split at h
    · exact absurd h (by simp)
    · simp only [Option.some.injEq, Prod.mk.injEq] at h; rw [← h.1]; rfl

structure Open (l : Log) (n : Node) : Prop where
  lock : Never .nsset l → ∀ r ∈ recs n, r.conf.lock = .unlocked
  ns : Never .nsdel l → ∀ fd c, getClient n fd = some c → c.ns ≠ none

theorem Open.step {S : Settings} {n n' : Node} {l : Log} (h : Open l n) (hi : NodeInv S n)
    (hmas : ∀ fd c, getClient n fd = some c → c.master = false)
    {ev : Event} {sent : List (Nat × Msg)} {st : Status} (hg : Guard S n ev)
    (hs : nodeStep S n ev = .ok n' sent st) : Open (l ++ [(ev, sent)]) n' := by
  have before : ∀ {hh}, Never hh (l ++ [(ev, sent)]) → Never hh l := fun hn fd e argv s hx => hn fd e argv s (List.mem_append_left _ hx)
  have samer : n'.slots = n.slots → Never .nsset (l ++ [(ev, sent)]) → ∀ r ∈ recs n', r.conf.lock = .unlocked := by
    intro hsl hn
    have : recs n' = recs n := by unfold recs; rw [hsl]
    rw [this]; exact h.lock (before hn)
  cases ev with
  | connect fd =>
    simp only [nodeStep] at hs
    injection hs with h1 _ _
    subst h1
    refine ⟨samer rfl, fun hn f c hc => ?_⟩
    rw [getClient_put] at hc
    split at hc
    · injection hc with hc
      subst hc
      obtain ⟨d, l0, hl, -⟩ := hi.head
      simp [newClient, hl]
    · exact h.ns (before hn) f c hc
  | disconnect fd =>
    simp only [nodeStep] at hs
    injection hs with h1 _ _
    subst h1
    refine ⟨samer rfl, fun hn f c hc => ?_⟩
    rw [getClient_put] at hc
    split at hc
    · simp at hc
    · exact h.ns (before hn) f c hc
  | tick us =>
    simp only [nodeStep] at hs
    injection hs with h1 _ _
    subst h1
    refine ⟨samer rfl, fun hn fd c hc => ?_⟩
    simp only [getClient] at hc
    rw [timeoutAll_get] at hc
    cases hgc : n.clients[fd]? with
    | none => rw [hgc] at hc; exact absurd hc (by simp)
    | some x =>
      cases x with
      | none => rw [hgc] at hc; exact absurd hc (by simp)
      | some k =>
        rw [hgc] at hc
        simp only [Option.map_some, Option.join_some, Option.some.injEq] at hc
        have := h.ns (before hn) fd k (by simp [getClient, hgc])
        rw [← hc]
        unfold timeoutOne
        split
        · split <;> exact this
        · exact this
  | rotate u =>
    simp only [nodeStep] at hs
    injection hs with h1 _ _
    subst h1
    refine ⟨fun hn x hx => ?_, fun hn f c hc => h.ns (before hn) f c hc⟩
    rcases mem_recs_update.1 hx with ⟨y, hy, -, rfl⟩ | ⟨hy, -⟩
    · exact h.lock (before hn) y hy
    · exact h.lock (before hn) x hy
  | restart order =>
    simp only [nodeStep] at hs
    cases hr : restartNode S n order with
    | none => rw [hr] at hs; exact absurd hs (by simp)
    | some n1 =>
      rw [hr] at hs
      injection hs with h1 _ _
      subst h1
      obtain ⟨-, hcl, hall⟩ := hi.restart hg hr
      refine ⟨fun _ x hx => ?_, fun _ f c hc => by unfold getClient at hc; rw [hcl] at hc; simp at hc⟩
      obtain ⟨r, -, -, _, _, conf, -, -, -, hd, hcf⟩ := hall x hx
      have := loadDesc_lock hd
      rw [hcf]
      split <;> exact this
  | request fd e argv =>
    have hs' : request S n fd e argv = .ok n' sent st := hs
    have last : ∀ {hh}, Never hh (l ++ [(.request fd e argv, sent)]) → commandOf argv ≠ some hh := fun hn => hn fd e argv sent (by simp)
    refine ⟨fun hn => ?_, fun hn f c' hc' => ?_⟩
    · obtain ⟨c, hc, -⟩ := request_cases hs'
      rcases asked hs' hc (hmas fd c hc) with ⟨-, -, hsl, -⟩ | ⟨-, -, hsl⟩ | ⟨r, hh, i, n1, c1, m, -, hcmd, -, -, hrun, hsl, -⟩
      · exact samer hsl hn
      · exact samer hsl hn
      · have : recs n' = recs n1 := by unfold recs; rw [hsl]
        rw [this]
        exact eff_lock (runHandler_eff hrun) (by rintro rfl; exact last hn hcmd) (h.lock (before hn))
    · obtain ⟨c, hc, -, hcase⟩ := request_cases hs'
      rcases hcase with ⟨hp, -⟩ | ⟨e', argv', n1, c1, m, hp, hd, rfl, -⟩
      · simp [popOwner, hmas fd c hc] at hp
      simp only [popOwner, hmas fd c hc, Bool.false_eq_true, if_false, Option.some.injEq, Prod.mk.injEq] at hp
      obtain ⟨rfl, rfl⟩ := hp
      have hns := h.ns (before hn)
      have key : n1.clients = n.clients ∧ c1.ns ≠ none := by
        rcases dispatch_cases hd with ⟨hu, -⟩ | ⟨u, key, rest, hu, rfl, hcase⟩
        · exact absurd hu (hns fd c hc)
        · rcases hcase with ⟨hl, rfl, rfl, -, rfl⟩ | ⟨i, r, name, hh, hl, hr, hi', hrun⟩
          · exact ⟨rfl, hns fd c hc⟩
          · have hcmd : commandOf (key :: rest) = some hh := by simp [commandOf, hl, hi']
            refine ⟨eff_clients (runHandler_eff hrun) (by rintro rfl; exact last hn hcmd), ?_⟩
            have hce := runHandler_client hrun
            cases hce <;> first | exact hns fd c hc | simp
      rw [post_get] at hc'
      cases hgc : getClient (putClient n1 fd (some c1)) f with
      | none => rw [hgc] at hc'; simp at hc'
      | some k0 =>
        rw [hgc, Option.map_some, Option.some.injEq] at hc'
        have hk0 : k0.ns ≠ none := by
          rw [getClient_put] at hgc
          split at hgc
          · injection hgc with hgc; rw [← hgc]; exact key.2
          · refine hns f k0 ?_
            unfold getClient at hgc ⊢
            rw [← key.1]; exact hgc
        rw [← hc']
        cases c1.executed with
        | none => exact hk0
        | some i =>
          simp only
          split
          · exact hk0
          · rw [notifyOne_ns]; exact hk0

theorem Open.start {S : Settings} {n : Node} (h : Started S n) (hcfg : S.cfg = some .user) : Open [] n := by
  refine ⟨fun _ r hr => ?_, fun _ fd c hc => by rw [Started.noClient h] at hc; simp at hc⟩
  obtain ⟨v, hb⟩ := h
  obtain ⟨-, -, x, l, -, hsl, hall⟩ := boot_inv rfl (by simp) (by simp) (by
    intro x hx
    simp only [List.mem_singleton] at hx
    subst hx
    exact ⟨⟨.user, Or.inl hcfg⟩, Or.inl rfl, Or.inl rfl⟩) hb
  cases hall with
  | cons h1 h2 =>
    cases h2
    unfold recs at hr
    rw [hsl] at hr
    simp only [List.map_nil, List.filterMap_cons, List.filterMap_nil, id, List.mem_singleton] at hr
    rw [hr]
    have := loadDesc_lock h1.desc
    exact this

theorem NodeRun.obs {S : Settings} {n0 n : Node} {l : Log} (h0 : Started S n0) (hcfg : S.cfg = some .user) (hr : NodeRun S n0 l n)
    (hf : AllFair S n0 l) (hm : NoMaster l) : Obs S l n ∧ Open l n := by
  have key : ∀ (l2 : Log) (n1 : Node) (l1 : Log), NodeRun S n0 l1 n1 → NodeRun S n1 l2 n → l = l1 ++ l2 → Obs S l1 n1 ∧ Open l1 n1 →
      Obs S l n ∧ Open l n := by
    intro l2
    induction l2 with
    | nil =>
      intro n1 l1 _ h2 he h
      cases h2
      rw [he, List.append_nil]; exact h
    | cons x l2 ih =>
      intro n1 l1 h1 h2 he h
      cases h2 with
      | cons hg hs h2 =>
        rename_i n2 ev sent st
        refine ih n2 (l1 ++ [(ev, sent)]) (h1.append (.cons hg hs (.nil _))) h2 (by rw [he, List.append_assoc]; rfl) ?_
        refine ⟨h.1.step ⟨n0, l1, h0, h1⟩ hcfg hg (hf n1 l1 ev sent l2 he h1) ?_ hs, h.2.step (h1.inv h0.inv) h.1.free hg hs⟩
        rintro fd e argv rfl
        exact hm fd e argv sent (by rw [he]; simp)
  exact key l n0 [] (.nil _) hr rfl ⟨Obs.start h0 hcfg, Open.start h0 hcfg⟩

/-! ### where a request is in the log -/

theorem filterMap_at {α β : Type} {f : α → Option β} {l : List α} {i : Nat} {y : β} (h : (l.filterMap f)[i]? = some y) :
    ∃ a x b, l = a ++ x :: b ∧ f x = some y ∧ (a.filterMap f).length = i := by
  induction l generalizing i with
  | nil => simp at h
  | cons x l ih =>
    rw [List.filterMap_cons] at h
    cases hx : f x with
    | none =>
      rw [hx] at h
      obtain ⟨a, z, b, rfl, h2, h3⟩ := ih h
      exact ⟨x :: a, z, b, rfl, h2, by rw [List.filterMap_cons, hx]; exact h3⟩
    | some w =>
      rw [hx] at h
      cases i with
      | zero =>
        simp only [List.getElem?_cons_zero, Option.some.injEq] at h
        exact ⟨[], x, l, rfl, by rw [hx, h], rfl⟩
      | succ i =>
        simp only [List.getElem?_cons_succ] at h
        obtain ⟨a, z, b, rfl, h2, h3⟩ := ih h
        exact ⟨x :: a, z, b, rfl, h2, by rw [List.filterMap_cons, hx, List.length_cons, h3]⟩

theorem since_split (fd : Nat) (l : Log) :
    ∃ pre, l = pre ++ since fd l ∧ since fd pre = [] ∧ ∀ x ∈ since fd l, isConnect fd x.1 = false := by
  generalize hn : l.length = n
  induction n generalizing l with
  | zero =>
    rw [List.length_eq_zero_iff] at hn
    subst hn
    exact ⟨[], rfl, rfl, by simp [since]⟩
  | succ n ih =>
    rcases List.eq_nil_or_concat l with rfl | ⟨l, x, rfl⟩
    · simp at hn
    rw [List.concat_eq_append] at hn ⊢
    by_cases hx : isConnect fd x.1 = true
    · have : since fd (l ++ [x]) = [] := by
        unfold since; rw [List.foldl_append]; simp [hx]
      exact ⟨l ++ [x], by rw [this, List.append_nil], this, by rw [this]; simp⟩
    · have hx : isConnect fd x.1 = false := by simpa using hx
      rw [since_append _ _ (by simpa using hx)]
      obtain ⟨pre, h1, h2, h3⟩ := ih l (by simpa using hn)
      refine ⟨pre, ?_, h2, ?_⟩
      · rw [← List.append_assoc, ← h1]
      · intro y hy
        rcases List.mem_append.1 hy with hy | hy
        · exact h3 y hy
        · simp only [List.mem_singleton] at hy; rw [hy]; exact hx

/-- The `i`th answered request of a connection. -/
theorem answer_at {fd : Nat} {log : Log} (h : Answered fd (since fd log)) {i : Nat} {argv : List Bytes} {m : Msg}
    (hi : (answers fd (since fd log))[i]? = some (argv, m)) :
    ∃ l1 e sent l2, log = l1 ++ (.request fd e argv, sent) :: l2 ∧ sentTo fd sent = [m] ∧
      (askedBy fd (since fd l1)).length = i ∧ (∀ x ∈ l2, isConnect fd x.1 = false) := by
  obtain ⟨pre, h1, h2, h3⟩ := since_split fd log
  obtain ⟨a, x, b, hab, hx, ha⟩ := filterMap_at hi
  obtain ⟨ev, sent⟩ := x
  have hpa : since fd (pre ++ a) = a := by
    rw [since_append _ _ (fun x hx => h3 x (by rw [hab]; exact List.mem_append_left _ hx)), h2, List.nil_append]
  have hlog : log = (pre ++ a) ++ (ev, sent) :: b := by rw [h1, hab, List.append_assoc]
  have hlen : (askedBy fd a).length = i := by
    have := (Answered.order (l := a) (fun x hx => h x (by rw [hab]; exact List.mem_append_left _ hx))).1
    rw [← this, List.length_map]; exact ha
  cases ev with
  | request f e argv' =>
    simp only at hx
    split at hx
    · rename_i f' e' a' m' he hs
      injection he with e1 e2 e3
      subst e1 e2 e3
      split at hx
      · rename_i hf
        injection hx with hx
        injection hx with hx1 hx2
        subst hf hx1 hx2
        exact ⟨pre ++ a, e, sent, b, hlog, hs, by rw [hpa]; exact hlen, fun y hy => h3 y (by rw [hab]; simp [hy])⟩
      · simp at hx
    · simp at hx
  | _ => simp at hx

/-- A moment of the log at which the client has not asked its request is before the request. -/
theorem before_request {fd : Nat} {l0 l1 l2 : Log} {e : Env} {argv : List Bytes} {sent : List (Nat × Msg)}
    (hl2 : ∀ x ∈ l2, isConnect fd x.1 = false) (h0 : l0 <+: l1 ++ (.request fd e argv, sent) :: l2)
    (hn : (askedBy fd (since fd l0)).length ≤ (askedBy fd (since fd l1)).length) : l0 <+: l1 := by
  have h1 : l1 <+: l1 ++ (.request fd e argv, sent) :: l2 := List.prefix_append _ _
  rcases List.prefix_or_prefix_of_prefix h0 h1 with h | h
  · exact h
  · obtain ⟨t, rfl⟩ := h
    cases t with
    | nil => simp
    | cons x t =>
      exfalso
      have h0' := (List.prefix_append_right_inj _).1 h0
      obtain ⟨u, hu⟩ := h0'
      simp only [List.cons_append, List.cons.injEq] at hu
      obtain ⟨rfl, rfl⟩ := hu
      rw [since_append _ _ (by
        intro y hy
        rcases List.mem_cons.1 hy with rfl | hy
        · rfl
        · exact hl2 y (List.mem_append_left _ hy)), askedBy_append] at hn
      have hc : ((Event.request fd e argv, sent) :: t) = [(Event.request fd e argv, sent)] ++ t := rfl
      rw [hc, askedBy_append, askedBy_one, List.length_append, List.length_append, List.length_singleton] at hn
      omega

end Zdb.Server
