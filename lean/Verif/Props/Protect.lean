/-
C12 in protect mode: the default namespace and the administrator password.
-/
import Verif.Props.Auth
namespace Zdb

theorem nsProperty_default {S : Settings} {x y : NsRec} {prop value : Bytes}
    (h : nsProperty S x nameDefault prop value = .ok y) : y.conf.password = x.conf.password := by
  unfold nsProperty at h
  simp only [beq_self_eq_true, if_true] at h
  repeat' split at h
  all_goals first
    | (cases h; rfl)
    | (cases h; done)

/-- The first namespace keeps its place, its address and its password during an event, but for a restart. -/
theorem head_step {S : Settings} {n n' : Node} (hi : NodeInv S n) {ev : Event} {sent : List (Nat × Msg)} {st : Status}
    (hs : nodeStep S n ev = .ok n' sent st) (hev : ∀ o, ev ≠ .restart o) {d : NsRec} {l : List (Option NsRec)}
    (hd : n.slots = some d :: l) :
    ∃ d' l', n'.slots = some d' :: l' ∧ d'.uid = d.uid ∧ d'.conf.password = d.conf.password := by
  have hdm : d ∈ recs n := mem_recs.2 (by rw [hd]; exact List.mem_cons_self ..)
  have hdn : d.conf.name = nameDefault := by
    obtain ⟨d1, l1, h1, h2⟩ := hi.head
    rw [hd] at h1; injection h1 with h1 _; injection h1 with h1; rw [h1]; exact h2
  have upd : ∀ (m : Node) (u : Nat) (f : NsRec → NsRec), m.slots = n.slots → (d.uid = u → (f d).uid = d.uid ∧ (f d).conf.password = d.conf.password) →
      ∃ d' l', (nsUpdate m u f).slots = some d' :: l' ∧ d'.uid = d.uid ∧ d'.conf.password = d.conf.password := by
    intro m u f hm hf
    refine ⟨_, _, nsUpdate_head (hm.trans hd) u f, ?_⟩
    by_cases hu : d.uid = u
    · simp only [hu, beq_self_eq_true, if_true]; rw [← hu]; exact hf hu
    · have : (d.uid == u) = false := by simp [hu]
      simp [this]
  cases ev with
  | connect fd => simp only [nodeStep] at hs; injection hs with h1 _ _; subst h1; exact ⟨d, l, hd, rfl, rfl⟩
  | disconnect fd => simp only [nodeStep] at hs; injection hs with h1 _ _; subst h1; exact ⟨d, l, hd, rfl, rfl⟩
  | tick us => simp only [nodeStep] at hs; injection hs with h1 _ _; subst h1; exact ⟨d, l, hd, rfl, rfl⟩
  | rotate u =>
    simp only [nodeStep] at hs; injection hs with h1 _ _; subst h1
    exact upd n u _ rfl (fun _ => ⟨rfl, rfl⟩)
  | restart o => exact absurd rfl (hev o)
  | request fd e argv =>
    simp only [nodeStep] at hs
    obtain ⟨c, hc, -, hcase⟩ := request_cases hs
    rcases hcase with ⟨-, rfl, -, -⟩ | ⟨e', argv', n1, c1, m, hp, hdi, rfl, -⟩
    · exact ⟨d, l, hd, rfl, rfl⟩
    · rw [(post_rest _ _ _ _).2.1, putClient_slots]
      rcases dispatch_cases hdi with ⟨hn, rfl, rfl, -, -⟩ | ⟨u, key, rest, hu, -, hcase⟩
      · exact ⟨d, l, hd, rfl, rfl⟩
      · rcases hcase with ⟨-, rfl, rfl, -, -⟩ | ⟨i, r, name, hh, -, hr, -, hrun⟩
        · exact ⟨d, l, hd, rfl, rfl⟩
        · have he := runHandler_eff hrun
          cases he with
          | same => exact ⟨d, l, hd, rfl, rfl⟩
          | ds => exact upd _ _ _ rfl (fun _ => ⟨rfl, rfl⟩)
          | nsnew => exact ⟨d, _, by simp only [hd]; rfl, rfl, rfl⟩
          | nsdel name x ha hl hn hdef hx =>
            have hxu : (d.uid == x.uid) = false := by
              have h1 := nsGet_some hx
              simp only [beq_eq_false_iff_ne, ne_eq]
              intro hq
              have := uid_inj hi.uids hdm h1.1 hq
              subst this
              exact hdef (h1.2.symm.trans hdn)
            exact ⟨d, kickSlot x.uid l, by simp only [hd, kickSlot, hxu]; rfl, rfl, rfl⟩
          | nsset a b prop value target x y ha hargs hv hn hx hpr =>
            refine upd _ _ _ rfl ?_
            intro hq
            have h1 := nsGet_some hx
            have := uid_inj hi.uids hdm h1.1 hq
            subst this
            have ht : target = nameDefault := h1.2.symm.trans hdn
            subst ht
            refine ⟨(nsProperty_ok (mem_cstr value) (Nat.le_trans (cstr_length_le value) hv) hpr).uid, ?_⟩
            exact (nsProperty_default hpr : y.conf.password = _)
          | reload => exact upd _ _ _ rfl (fun _ => ⟨rfl, rfl⟩)
          | flush => exact upd _ _ _ rfl (fun _ => ⟨rfl, rfl⟩)

theorem boot_head {S : Settings} {d : Dir} {ds : List Dir} {n : Node} (h : boot S d ds = some n) (hp : S.protect = true) :
    ∃ r l, n.slots = some r :: l ∧ r.conf.password = S.adminpwd := by
  unfold boot at h
  split at h
  · exact absurd h (by simp)
  · split at h
    · injection h with h
      subst h
      exact ⟨_, _, rfl, by simp [startConf, hp]⟩
    · exact absurd h (by simp)

/-- The client is in the first namespace and may write. -/
def WritesDefault (n : Node) (fd : Nat) : Prop :=
  ∃ c d l, getClient n fd = some c ∧ n.slots = some d :: l ∧ c.ns = some d.uid ∧ c.writable = true

/-- The first namespace has the administrator password. -/
def Sealed (S : Settings) (n : Node) : Prop := ∃ d l, n.slots = some d :: l ∧ d.conf.password = S.adminpwd

theorem sealed_step {S : Settings} (hp : S.protect = true) {n n' : Node} (hi : NodeInv S n) {ev : Event}
    {sent : List (Nat × Msg)} {st : Status} (hs : nodeStep S n ev = .ok n' sent st) (h : Sealed S n) : Sealed S n' := by
  obtain ⟨d, l, hd, hpw⟩ := h
  by_cases hev : ∃ o, ev = .restart o
  · obtain ⟨o, rfl⟩ := hev
    simp only [nodeStep] at hs
    split at hs
    · rename_i n2 hn2
      injection hs with h1 _ _; subst h1
      unfold restartNode at hn2
      rw [hd] at hn2
      obtain ⟨r, l', h1, h2⟩ := boot_head hn2 hp
      exact ⟨r, l', h1, h2⟩
    · exact absurd hs (by simp)
  · obtain ⟨d', l', h1, -, h2⟩ := head_step hi hs (fun o ho => hev ⟨o, ho⟩) hd
    exact ⟨d', l', h1, h2.trans hpw⟩

/-- A SELECT of the default namespace with a proof of the password, acknowledged. -/
def SelectedWith (S : Settings) (n : Node) (fd : Nat) (pwd : Bytes) (challenge : Option Bytes) (ev : Event)
    (sent : List (Nat × Msg)) : Prop :=
  ∃ e argv name rest, ev = .request fd e argv ∧ Asks n fd e argv .select (name :: rest) ∧ cstr name = nameDefault ∧
    Proof S pwd challenge (rest.map cstr) ∧ GotOk fd sent

theorem access_proof {S : Settings} {c : Client} {conf : NsConf} {pwd : Bytes} {argv : List Bytes}
    (h : accessOf S c conf argv = .ok true) (hp : conf.password = some pwd) :
    ∃ a b rest, argv = a :: b :: rest ∧ Proof S pwd c.nonce (rest.map cstr) := by
  unfold accessOf at h
  rw [hp] at h
  simp only at h
  unfold selectAccess at h
  match argv, h with
  | [a, b], h =>
    simp only at h
    split at h
    · injection h with h; exact absurd h (by simp)
    · exact absurd h (by simp)
  | [a, b, p], h =>
    simp only at h
    split at h
    · exact absurd h (by simp)
    · split at h
      · rename_i hq
        have hq : cstr p = pwd := by simpa using hq
        exact ⟨a, b, [p], rfl, by rw [List.map_cons, List.map_nil, hq]; exact .plain⟩
      · exact absurd h (by simp)
  | [a, b, w, d], h =>
    simp only at h
    split at h
    · exact absurd h (by simp)
    · split at h
      · exact absurd h (by simp)
      · rename_i nonce hn
        split at h
        · exact absurd h (by simp)
        · split at h
          · rename_i hq
            have hq : cstr d = S.hash nonce pwd := by unfold passwordCheck at hq; simpa using hq
            exact ⟨a, b, [w, d], rfl, by rw [List.map_cons, List.map_cons, List.map_nil, hq]; exact .digest _ _ hn⟩
          · exact absurd h (by simp)
  | [], h => exact absurd h (by simp)
  | [_], h => exact absurd h (by simp)
  | _ :: _ :: _ :: _ :: _ :: _, h => exact absurd h (by simp)

theorem writes_step {S : Settings} (hp : S.protect = true) {pwd : Bytes} (hpw : S.adminpwd = some pwd) {n n' : Node}
    (hi : NodeInv S n) (hsl : Sealed S n) {ev : Event} {sent : List (Nat × Msg)} {st : Status}
    (hs : nodeStep S n ev = .ok n' sent st) {fd : Nat} (h : WritesDefault n' fd) :
    (WritesDefault n fd ∧ Stays fd ev) ∨
    ∃ c, getClient n fd = some c ∧ SelectedWith S n fd pwd c.nonce ev sent := by
  obtain ⟨c', d', l', hc', hd', hns, hw⟩ := h
  obtain ⟨d, l, hd, hdp⟩ := hsl
  have hdm : d ∈ recs n := mem_recs.2 (by rw [hd]; exact List.mem_cons_self ..)
  have hdn : d.conf.name = nameDefault := by
    obtain ⟨d1, l1, h1, h2⟩ := hi.head
    rw [hd] at h1; injection h1 with h1 _; injection h1 with h1; rw [h1]; exact h2
  have hnr : ∀ o, ev ≠ .restart o := by
    rintro o rfl
    simp only [nodeStep] at hs
    split at hs
    · rename_i n2 hn2
      injection hs with h1 _ _; subst h1
      have := restart_clients hn2
      unfold getClient at hc'; rw [this] at hc'; simp at hc'
    · exact absurd hs (by simp)
  have hnew : ∀ m, (newClient S m).writable = false := by intro m; simp [newClient, hp]
  have hstay : Stays fd ev := by
    cases ev with
    | connect fd1 =>
      intro h1; subst h1
      simp only [nodeStep] at hs; injection hs with h1 _ _; subst h1
      rw [getClient_put, if_pos rfl] at hc'
      injection hc' with hc'; subst hc'
      rw [hnew] at hw; exact absurd hw (by simp)
    | disconnect fd1 =>
      intro h1; subst h1
      simp only [nodeStep] at hs
      injection hs with h1 _ _; subst h1
      rw [getClient_put, if_pos rfl] at hc'
      exact absurd hc' (by simp)
    | restart o => exact absurd rfl (hnr o)
    | _ => trivial
  obtain ⟨d2, l2, hd2, hdu, -⟩ := head_step hi hs hnr hd
  rw [hd'] at hd2; injection hd2 with h1 _; injection h1 with h1; subst h1
  rw [hdu] at hns
  rcases client_step hs hc' with ⟨rfl, rfl⟩ | ⟨c, hc, hr | hb⟩
  · rw [hnew] at hw; exact absurd hw (by simp)
  · obtain ⟨e, argv, p, i, m, n1, rest, rfl, hpk, hpc, -, -, hce, hsent, -⟩ := hr.ex
    generalize hh : p.h = ph at hce
    cases hce with
    | select name r w hn hg ha =>
      right
      obtain ⟨h1, h2⟩ := nsGet_some hg
      injection hns with hns
      have := uid_inj hi.uids hdm h1 hns.symm
      subst this
      have hw : w = true := hw
      subst hw
      obtain ⟨a, b, rst, hargs, hpf⟩ := access_proof ha (hdp.trans hpw)
      have hb : cstr b = nameDefault := by
        unfold nsArg at hn
        rw [hargs] at hn
        simp only [List.getElem?_cons_succ, List.getElem?_cons_zero] at hn
        split at hn
        · exact absurd hn (by simp)
        · injection hn with hn; rw [hn, ← h2, hdn]
      exact ⟨c, hc, e, argv, b, rst, rfl, ⟨p, hpk, hh, by rw [hargs]; rfl⟩, hb, hpf, by unfold GotOk; rw [hsent]; rfl⟩
    | _ => exact Or.inl ⟨⟨c, d, l, hc, hd, hns, hw⟩, hstay⟩
  · refine Or.inl ⟨⟨c, d, l, hc, hd, ?_, by rw [← hb.writable]; exact hw⟩, hstay⟩
    rcases hb.ns with h1 | h1
    · rw [← h1]; exact hns
    · rw [h1] at hns; exact absurd hns (by simp)

/-- C12 in protect mode: a client that may write to the default namespace selected it with the administrator password,
    or with the digest of the last challenge sent to this connection and the password (up to bytes after a NUL); the
    execution splits at that request, and the connection was not closed, nor the process restarted, since. -/
theorem C12_protect_mode {S : Settings} (hp : S.protect = true) {pwd : Bytes} (hpw : S.adminpwd = some pwd)
    {n0 n : Node} {l : List (Event × List (Nat × Msg))} (h0 : Started S n0) (h : NodeRun S n0 l n) {fd : Nat} {c : Client}
    (hc : getClient n fd = some c) {r : NsRec} (hr : some r ∈ n.slots) (hrn : r.conf.name = nameDefault)
    (hns : c.ns = some r.uid) (hw : c.writable = true) :
    ∃ l1 ev sent l2 n1, l = l1 ++ (ev, sent) :: l2 ∧ NodeRun S n0 l1 n1 ∧
      SelectedWith S n1 fd pwd (lastChallenge fd l1) ev sent ∧ ∀ x ∈ l2, Stays fd x.1 := by
  have key : ∀ {a b : Node} {l : List (Event × List (Nat × Msg))}, NodeRun S a l b → NodeInv S a → Sealed S a → WritesDefault b fd →
      (WritesDefault a fd ∧ ∀ x ∈ l, Stays fd x.1) ∨
      ∃ l1 ev sent l2 n1 c1, l = l1 ++ (ev, sent) :: l2 ∧ NodeRun S a l1 n1 ∧ getClient n1 fd = some c1 ∧
        SelectedWith S n1 fd pwd c1.nonce ev sent ∧ ∀ x ∈ l2, Stays fd x.1 := by
    intro a b l h
    induction h with
    | nil n => intro _ _ hb; exact Or.inl ⟨hb, by simp⟩
    | @cons n n1 n2 ev sent st l hg hs h ih =>
      intro hi hsl hb
      rcases ih (hi.step hg hs) (sealed_step hp hi hs hsl) hb with ⟨h1, hst⟩ | ⟨l1, ev', sent', l2, m, c1, rfl, hrun, hc1, hack, hst⟩
      · rcases writes_step hp hpw hi hsl hs h1 with ⟨ha0, hs0⟩ | ⟨c1, hc1, hack⟩
        · refine Or.inl ⟨ha0, ?_⟩
          intro x hx
          rcases List.mem_cons.1 hx with rfl | hx
          · exact hs0
          · exact hst x hx
        · exact Or.inr ⟨[], ev, sent, l, n, c1, rfl, .nil _, hc1, hack, hst⟩
      · exact Or.inr ⟨(ev, sent) :: l1, ev', sent', l2, m, c1, rfl, .cons hg hs hrun, hc1, hack, hst⟩
  have hi0 := h0.inv
  have hsl0 : Sealed S n0 := by
    obtain ⟨u, h0⟩ := h0
    exact boot_head h0 hp
  have hi := h.inv hi0
  have hwd : WritesDefault n fd := by
    obtain ⟨d, l1, hd, hdn⟩ := hi.head
    have hdm : d ∈ recs n := mem_recs.2 (by rw [hd]; exact List.mem_cons_self ..)
    have := nodup_inj hi.names (mem_recs.2 hr) hdm (hrn.trans hdn.symm)
    subst this
    exact ⟨c, r, l1, hc, hd, hns, hw⟩
  rcases key h hi0 hsl0 hwd with ⟨⟨c0, -, -, hc0, -⟩, -⟩ | ⟨l1, ev, sent, l2, n1, c1, rfl, hrun, hc1, ⟨e, argv, name, rest, hev, has, hnm, hpf, hok⟩, hst⟩
  · exfalso
    obtain ⟨u, h0⟩ := h0
    have h1 := boot_clients h0
    unfold getClient at hc0; rw [h1] at hc0; simp at hc0
  · refine ⟨l1, ev, sent, l2, n1, rfl, hrun, ⟨e, argv, name, rest, hev, has, hnm, ?_, hok⟩, hst⟩
    generalize hq : rest.map cstr = q at hpf
    cases hpf with
    | plain => exact .plain
    | digest w nonce hn => exact .digest w nonce (held_challenge h0 hrun hc1 hn)

/-- The same process in protect mode. -/
def exProtect : Settings := { exS with protect := true }

/-- 5 writes without having the password, gives a wrong one, then the right one; the process restarts, and a new client must give
    it again. -/
def exProtected : List Event :=
  [.connect 5,
   .request 5 (exE 0) [str "SET", str "k", str "v"],
   .request 5 (exE 1) [str "SELECT", str "default", str "no"],
   .request 5 (exE 2) [str "SELECT", str "default"],
   .request 5 (exE 3) [str "SET", str "k", str "v"],
   .request 5 (exE 4) [str "SELECT", str "default", str "pw"],
   .request 5 (exE 5) [str "SET", str "k", str "v"],
   .restart [],
   .connect 5,
   .request 5 (exE 6) [str "SET", str "k", str "w"],
   .request 5 (exE 7) [str "SELECT", str "default", str "pw"],
   .request 5 (exE 8) [str "SET", str "k", str "w"]]

set_option maxRecDepth 100000 in
theorem C12_protect_example : ranSent exProtect exProtected =
    [[], [(5, .reply (.err "Namespace is in read-only mode"))], [(5, .reply (.err "Access denied"))], [(5, .reply .ok)],
     [(5, .reply (.err "Namespace is in read-only mode"))], [(5, .reply .ok)], [(5, .reply (.bulk (str "k")))], [], [],
     [(5, .reply (.err "Namespace is in read-only mode"))], [(5, .reply .ok)], [(5, .reply (.bulk (str "k")))]] := rfl

end Zdb
