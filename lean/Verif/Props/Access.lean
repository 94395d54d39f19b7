/-
C10, C11, C12, C13: locked and frozen namespaces, read-only clients, administrators.
-/
import Verif.Props.Namespaces
import Verif.Props.Seq
import Verif.Lemmas.Refusal
import Verif.Lemmas.UserCursor
import Verif.Spec.Rights
namespace Zdb

/-! ### C10 -/

/-- C10: SET and DEL in a locked or frozen namespace are refused, whoever sends them and whatever the arguments;
    files, tables and settings of all namespaces stay as they are. -/
theorem C10_locked_namespace_unchanged {S : Settings} {n n' : Node} {fd : Nat} {e : Env} {argv : List Bytes}
    {sent : List (Nat × Msg)} {st : Status} (h : Reachable S n) (hs : request S n fd e argv = .ok n' sent st) {p : Picked}
    (hp : pick n fd e argv = some p) (hh : p.h = .ds .set ∨ p.h = .ds .del) (hl : p.r.conf.lock ≠ .unlocked) :
    Refused n n' fd sent := by
  have hn : NoWrite (ctxOf S p.e p.c p.r) := Or.inr hl
  rcases hh with hh | hh
  · obtain ⟨msg, hm⟩ := set_nowrite _ p.argv hn
    exact ds_refused h hs hp hh (hm _ _)
  · obtain ⟨msg, hm⟩ := del_nowrite _ p.argv hn
    exact ds_refused h hs hp hh (hm _ _)

/-- `foo` locked by the administrator, then unlocked. -/
def exLock : List Event := exEvents ++
  [.request 5 (exE 4) [str "NSSET", str "foo", str "lock", str "1"],
   .request 6 (exE 5) [str "SET", str "k", str "w"],
   .request 6 (exE 6) [str "DEL", str "k"],
   .request 6 (exE 7) [str "GET", str "k"],
   .request 5 (exE 8) [str "NSSET", str "foo", str "lock", str "0"],
   .request 6 (exE 9) [str "SET", str "k", str "w"]]

set_option maxRecDepth 100000 in
theorem C10_example : ranSent exS exLock = ranSent exS exEvents ++
    [[(5, .reply .ok)], [(6, .reply (.err "Namespace is temporarily locked (read-only)"))],
     [(6, .reply (.err "Namespace is temporarily locked (read-only)"))], [(6, .reply (.bulk (str "v")))],
     [(5, .reply .ok)], [(6, .reply (.bulk (str "k")))]] := rfl

/-! ### C11 -/

/-- Commands that read or write keys. -/
def DsCmd.touchesKeys : DsCmd → Bool
  | .get | .mget | .set | .del | .exists | .check | .length | .keytime | .scan | .rscan | .kscan | .history | .keycur => true
  | _ => false

/-- C11, KSCAN aside: in a frozen namespace these commands are refused with a message that only depends on the
    client and on the arguments. -/
theorem C11_frozen_partial {S : Settings} {n n' : Node} {fd : Nat} {e : Env} {argv : List Bytes}
    {sent : List (Nat × Msg)} {st : Status} (h : Reachable S n) (hs : request S n fd e argv = .ok n' sent st) {p : Picked}
    (hp : pick n fd e argv = some p) {d : DsCmd} (hh : p.h = .ds d) (hd : d.touchesKeys = true) (hk : d ≠ .kscan)
    (hl : p.r.conf.lock = .frozen) :
    Refused n n' fd sent ∧ ∃ msg, sent.head? = some (fd, .reply (.err msg)) ∧
      ∀ br s, dsCommand (ctxOf S p.e p.c p.r) br s d p.argv = (br, s, .err msg) := by
  have hf : d.frozenChecked = true := by cases d <;> simp_all [DsCmd.touchesKeys, DsCmd.frozenChecked]
  obtain ⟨msg, hm⟩ := ds_frozen (ctxOf S p.e p.c p.r) d p.argv hl hf
  refine ⟨ds_refused h hs hp hh (hm _ _), msg, ?_, hm⟩
  exact ((request_ran hs hp).ds_same h.inv hp hh (hm _ _)).2.1

/-- `foo` frozen. -/
def exFreeze : List Event := exEvents ++ [.request 5 (exE 4) [str "NSSET", str "foo", str "freeze", str "1"]]

set_option maxRecDepth 100000 in
theorem C11_example : ranSent exS (exFreeze ++ [.request 6 (exE 7) [str "GET", str "k"], .request 6 (exE 8) [str "SCAN"]]) =
    ranSent exS exEvents ++ [[(5, .reply .ok)], [(6, .reply (.err "Namespace is temporarily frozen (read-write disabled)"))],
      [(6, .reply (.err "Namespace is temporarily frozen (read-write disabled)"))]] := rfl

/-- The request KSCAN k of client 6. -/
def exKscan : List Bytes := [str "KSCAN", str "k"]

theorem kscan_bucket {br : Branches} {u : Nat} {key : Bytes} {e : Entry} (he : e ∈ br (keyHash e.id))
    (hu : e.ns = u) (hk : key.isPrefixOf e.id = true) : kscanSel br u buckets key ≠ [] := by
  have hh : keyHash e.id < buckets := by unfold buckets; exact keyHash_lt _
  generalize buckets = N at hh ⊢
  have : e ∈ kscanSel br u N key := by
    unfold kscanSel
    rw [List.mem_flatMap]
    exact ⟨_, List.mem_range.2 hh, List.mem_filter.2 ⟨he, by simp [hu, hk]⟩⟩
  exact List.ne_nil_of_mem this

/-- KSCAN in a user-key namespace in which some key begins with the prefix, whatever the freeze. -/
theorem kscan_shows {S : Settings} {n : Node} {fd : Nat} {e : Env} {w key : Bytes} {c : Client} {r : NsRec} {u : Nat} {x : Entry}
    (hc : getClient n fd = some c) (hm : c.master = false) (hn : c.ns = some u) (hr : nsDeref n u = some r)
    (hu : r.uid = u) (hl : lookupCmd w = some 20) (hmode : r.store.mode = .user) (hv : argsValidate [w, key] 2 = none)
    (hx : x ∈ n.br (keyHash x.id)) (hxu : x.ns = u) (hxk : key.isPrefixOf x.id = true) :
    ∃ n' keys sent, pick n fd e [w, key] = some ⟨c, r, .ds .kscan, e, [w, key]⟩ ∧
      request S n fd e [w, key] = .ok n' sent .keep ∧ keys ≠ [] ∧
      sent.head? = some (fd, .reply (.arr [.bulk [48], .arr keys])) := by
  have hsel := kscan_bucket hx hxu hxk
  have hks0 : (kscanSel n.br u buckets key).map (fun e => Reply.bulk e.id) ≠ [] := by simpa using hsel
  have hcmd : ∀ cx, cx.u = u → dsCommand cx n.br r.store .kscan [w, key] = (n.br, r.store,
      .arr [.bulk [48], .arr ((kscanSel n.br u buckets key).map (fun e => .bulk e.id))]) := by
    intro cx hcx
    simp only [dsCommand, cmdKscan, hmode, hv, cmdKscan.kscanReply, hcx]
    rw [if_neg (by simpa using hsel)]
  generalize (kscanSel n.br u buckets key).map (fun e => Reply.bulk e.id) = ks at hks0 hcmd
  have hh : handlers[20]? = some (str "KSCAN", .ds .kscan) := rfl
  have hpop : popOwner e c [w, key] = some (e, [w, key]) := by simp [popOwner, hm]
  have hmc : ∀ l, mirrorCrash e fd { c with executed := some 20 } l = false := by intro l; simp [mirrorCrash, hn]
  have hdis : dispatch S e n c [w, key] = .done (nsUpdate { n with br := n.br } u (fun q => { q with store := r.store }))
      { c with executed := some 20 } (some (.reply (.arr [.bulk [48], .arr ks]))) .keep := by
    unfold dispatch
    simp only [hn]
    simp only [hl, hr, hh, runHandler, cmdDs]
    have ho : ∀ cx, (lookedUp cx .kscan [w, key]).any (seqOverrun r.store) = false := fun _ => rfl
    simp only [ho, Bool.false_eq_true, if_false]
    rw [hcmd _ hu]
    simp only [say, hu, hn]
  have hreq : request S n fd e [w, key] = .ok (post e fd (putClient (nsUpdate { n with br := n.br } u
      (fun q => { q with store := r.store })) fd (some { c with executed := some 20 })) { c with executed := some 20 }).1
      ((some (Msg.reply (.arr [.bulk [48], .arr ks]))).toList.map (fun m => (fd, m)) ++
      (post e fd (putClient (nsUpdate { n with br := n.br } u (fun q => { q with store := r.store })) fd
      (some { c with executed := some 20 })) { c with executed := some 20 }).2) .keep := by
    unfold request
    simp only [hc, if_neg (List.cons_ne_nil _ _), hpop, hdis, hmc, Bool.false_eq_true, if_false]
  exact ⟨_, ks, _, pick_of hc hpop hn rfl hl hr hh, hreq, hks0, rfl⟩

set_option maxRecDepth 100000 in
/-- C11 does not hold for KSCAN: in a frozen namespace it replies the keys. -/
theorem C11_refuted : ∃ (n n' : Node) (p : Picked) (keys : List Reply) (sent : List (Nat × Msg)), Reachable exS n ∧
    pick n 6 (exE 7) exKscan = some p ∧ p.h = .ds .kscan ∧ p.r.conf.lock = .frozen ∧
    request exS n 6 (exE 7) exKscan = .ok n' sent .keep ∧ keys ≠ [] ∧
    sent.head? = some (6, .reply (.arr [.bulk [48], .arr keys])) := by
  obtain ⟨c, hc, hm, hn⟩ : ∃ c, getClient (ranNode exS exFreeze) 6 = some c ∧ c.master = false ∧ c.ns = some 1001 :=
    ⟨_, rfl, rfl, rfl⟩
  obtain ⟨r, hr, hu, hmode, hf⟩ : ∃ r, nsDeref (ranNode exS exFreeze) 1001 = some r ∧ r.uid = 1001 ∧ r.store.mode = .user ∧
    r.conf.lock = .frozen := ⟨_, rfl, rfl, rfl, rfl⟩
  obtain ⟨x, hx, hxu, hxk⟩ : ∃ x, (ranNode exS exFreeze).br (keyHash (str "k")) = [x] ∧ x.ns = 1001 ∧ x.id = str "k" :=
    ⟨_, rfl, rfl, rfl⟩
  obtain ⟨n', keys, sent, h1, h2, h3, h4⟩ := kscan_shows (S := exS) (e := exE 7) (w := str "KSCAN") (key := str "k") (x := x) hc hm hn hr hu rfl
    hmode rfl (by rw [hxk, hx]; simp) hxu (by rw [hxk]; rfl)
  exact ⟨_, n', _, keys, sent, ex_reachable exFreeze, h1, rfl, hf, h2, h3, h4⟩

/-! ### C49, the node -/

/-- Handlers of the reading commands of C49. -/
def Handler.reads : Handler → Bool
  | .ds d => !d.changes
  | .nsinfo | .nslist | .ping | .time | .info | .select => true
  | _ => false

/-- C49: reading commands leave the files, tables and settings of all namespaces as they are. -/
theorem C49_node_reads_change_nothing {S : Settings} {n n' : Node} {fd : Nat} {e : Env} {argv : List Bytes}
    {sent : List (Nat × Msg)} {st : Status} (h : Reachable S n) (hs : request S n fd e argv = .ok n' sent st) {p : Picked}
    (hp : pick n fd e argv = some p) (hh : p.h.reads = true) : SameNode n n' := by
  cases hd : p.h with
  | ds d =>
    rw [hd] at hh
    exact ((request_ran hs hp).ds_same h.inv hp hd (dsCommand_same _ _ _ _ _ (by simpa [Handler.reads] using hh))).1
  | _ =>
    refine (request_ran hs hp).data (by intro d; rw [hd]; simp) ?_
    rw [hd] at hh ⊢
    first | rfl | simp [Handler.reads] at hh

/-! ### C12 -/

/-- C12: SET and DEL of a client without write access are refused; all namespaces stay as they are. -/
theorem C12_write_refused {S : Settings} {n n' : Node} {fd : Nat} {e : Env} {argv : List Bytes}
    {sent : List (Nat × Msg)} {st : Status} (h : Reachable S n) (hs : request S n fd e argv = .ok n' sent st) {p : Picked}
    (hp : pick n fd e argv = some p) (hh : p.h = .ds .set ∨ p.h = .ds .del) (hw : p.c.writable = false) :
    Refused n n' fd sent := by
  have hn : NoWrite (ctxOf S p.e p.c p.r) := Or.inl hw
  rcases hh with hh | hh
  · obtain ⟨msg, hm⟩ := set_nowrite _ p.argv hn
    exact ds_refused h hs hp hh (hm _ _)
  · obtain ⟨msg, hm⟩ := del_nowrite _ p.argv hn
    exact ds_refused h hs hp hh (hm _ _)

theorem ds_readonly (c : Ctx) (d : DsCmd) (argv : List Bytes) (ha : c.admin = false) (hw : c.writable = false) (br : Branches)
    (s : Store) : ∃ rep, dsCommand c br s d argv = (br, s, rep) := by
  by_cases hd : d.changes = false
  · exact ⟨_, dsCommand_same c br s d argv hd⟩
  · cases d with
    | set => obtain ⟨m, hm⟩ := set_nowrite c argv (Or.inl hw); exact ⟨_, hm br s⟩
    | del => obtain ⟨m, hm⟩ := del_nowrite c argv (Or.inl hw); exact ⟨_, hm br s⟩
    | nsjump => exact ⟨_, ds_denied c .nsjump argv ha rfl br s⟩
    | index => exact ⟨_, ds_denied c .index argv ha rfl br s⟩
    | _ => simp [DsCmd.changes] at hd

/-- C12: whatever a client sends that can neither write nor administrate, files, tables and settings of all
    namespaces stay as they are, except that FLUSH loads the namespace of the client again from its files. -/
theorem C12_readonly_requests {S : Settings} {n n' : Node} {fd : Nat} {e : Env} {argv : List Bytes}
    {sent : List (Nat × Msg)} {st : Status} (h : Reachable S n) (hs : request S n fd e argv = .ok n' sent st) {c : Client}
    (hc : getClient n fd = some c) (ha : c.admin = false) (hw : c.writable = false) :
    SameNode n n' ∨ ∃ p br s, pick n fd e argv = some p ∧ p.h = .flush ∧ reloadNs S.cfg n.br p.r.uid p.r.store = .ok br s ∧
      SameNode (nsUpdate { n with br := br } p.r.uid (fun r => { r with store := s })) n' := by
  rcases request_pick hs with ⟨-, h1, h2, h3⟩ | ⟨p, n1, c1, m, i, hp, hr, hn, -⟩
  · exact Or.inl ⟨h2, h1, h3⟩
  · have hpc := (pick_some hp).1
    rw [hc] at hpc; injection hpc with hpc
    have hpost := post_rest p.e fd (putClient n1 fd (some c1)) c1
    have hn' : SameNode n1 n' := by
      rw [hn]; exact ⟨hpost.2.1, hpost.1, hpost.2.2⟩
    have hadm : ({ p.c with executed := some i } : Client).admin ≠ true := by simp [← hpc, ha]
    have he := runHandler_eff hr
    cases he' : p.h with
    | ds d =>
      obtain ⟨rep, hrep⟩ := ds_readonly (ctxOf S p.e p.c p.r) d p.argv (by rw [← hpc]; exact ha) (by rw [← hpc]; exact hw) n.br p.r.store
      exact Or.inl ((request_ran hs hp).ds_same h.inv hp he' hrep).1
    | _ =>
      have hnd : ∀ d, p.h ≠ .ds d := by rw [he']; simp
      clear he'
      revert hnd
      generalize hh : p.h = ph at he
      intro hnd
      cases he with
      | same => exact Or.inl hn'
      | ds d => exact absurd rfl (hnd d)
      | nsnew name br s ha' => exact absurd ha' hadm
      | nsdel name x ha' => exact absurd ha' hadm
      | nsset a b prop value target x y ha' => exact absurd ha' hadm
      | reload name x br s ha' => exact absurd ha' hadm
      | flush br s h1 h2 hrel => exact Or.inr ⟨p, br, s, hp, hh, hrel, hn'⟩

/-- Commands of clients with write access, and everything that is not a command. -/
def byWriter : NsEvent × Reply → Bool
  | (.cmd c _ _, _) => c.writable
  | _ => true

theorem nsRun_readonly {cfg : Option Mode} {u : Nat} {br br' : Branches} {s s' : Store} {tr : List (NsEvent × Reply)}
    (h : NsRun cfg u br s tr br' s') : ∀ x ∈ tr, byWriter x = false → ∀ k, writeOf k x = none ∧ seqWriteOf k x = none := by
  induction h with
  | nil => simp
  | @cmd c d argv br br1 br2 s s1 s2 r tr hu h1 h2 ih =>
    intro x hx hb k
    rcases List.mem_cons.1 hx with rfl | hx
    · cases d with
      | set =>
        obtain ⟨m, hm⟩ := set_nowrite c argv (Or.inl hb)
        rw [show dsCommand c br s .set argv = cmdSet c br s argv from rfl, hm] at h1
        injection h1 with _ h1; injection h1 with _ h1; subst h1
        exact ⟨by unfold writeOf; split <;> simp_all, by unfold seqWriteOf; split <;> simp_all⟩
      | del =>
        obtain ⟨m, hm⟩ := del_nowrite c argv (Or.inl hb)
        rw [show dsCommand c br s .del argv = cmdDel c br s argv from rfl, hm] at h1
        injection h1 with _ h1; injection h1 with _ h1; subst h1
        exact ⟨by unfold writeOf; split <;> simp_all, by unfold seqWriteOf; split <;> simp_all⟩
      | _ => exact ⟨rfl, rfl⟩
    · exact ih x hx hb k
  | foreign h1 h2 ih =>
    intro x hx hb k
    rcases List.mem_cons.1 hx with rfl | hx
    · simp [byWriter] at hb
    · exact ih x hx hb k
  | reload h1 h2 ih =>
    intro x hx hb k
    rcases List.mem_cons.1 hx with rfl | hx
    · simp [byWriter] at hb
    · exact ih x hx hb k

theorem foldl_filter_eq {α β : Type} (f : β → α → β) (q : α → Bool) (l : List α) (h : ∀ x ∈ l, q x = false → ∀ a, f a x = a) (a : β) :
    (l.filter q).foldl f a = l.foldl f a := by
  induction l generalizing a with
  | nil => rfl
  | cons x l ih =>
    have ih := ih (fun y hy => h y (List.mem_cons_of_mem _ hy))
    cases hq : q x with
    | true => rw [List.filter_cons_of_pos hq]; exact ih _
    | false =>
      rw [List.filter_cons_of_neg (by simp [hq])]
      rw [List.foldl_cons, h x (List.mem_cons_self ..) hq]
      exact ih _

/-- C12: what GET returns in a user-key namespace is decided by the commands of the clients with write access
    alone. -/
theorem C12_contents_are_those_of_the_writers {cfg : Option Mode} {u : Nat}
    {tr : List (NsEvent × Reply)} {br' : Branches} {s' : Store} {c : Ctx} {name k : Bytes} {r : Reply}
    (h : UserRun cfg u (tr ++ [(.cmd c .get [name, k], r)]) br' s')
    (hk : k ≠ []) (hk2 : k.length ≤ 255) (hz : c.conf.lock ≠ .frozen) :
    r = match lastWrite k (tr.filter byWriter) with
      | some p => .bulk p
      | none => .nil := by
  obtain ⟨br0, br, s, -, -, hrun⟩ := h.run
  have := nsRun_readonly hrun
  rw [C01_get_returns_last_acknowledged_set h hk hk2 hz]
  unfold lastWrite
  rw [foldl_filter_eq _ byWriter tr (fun x hx hb a => by
    rw [(this x (List.mem_append_left _ hx) hb k).1]; rfl)]
  rfl

/-- C12, sequential mode. -/
theorem C12_seq_contents_are_those_of_the_writers_partial {cfg : Option Mode} {u : Nat}
    {tr : List (NsEvent × Reply)} {br' : Branches} {s' : Store} {c : Ctx} {name k : Bytes} {r : Reply}
    (h : SeqRun cfg u (tr ++ [(.cmd c .get [name, k], r)]) br' s')
    (hk : k ≠ []) (hk2 : k.length ≤ 255) (hz : c.conf.lock ≠ .frozen) :
    r = match lastSeqWrite k (tr.filter byWriter) with
      | some p => .bulk p
      | none => .nil := by
  obtain ⟨br, s, -, hrun⟩ := h.run
  have := nsRun_readonly hrun.nsRun
  rw [C03_get_returns_last_acknowledged_set_partial h hk hk2 hz]
  unfold lastSeqWrite
  rw [foldl_filter_eq _ byWriter tr (fun x hx hb a => by
    rw [(this x (List.mem_append_left _ hx) hb k).2]; rfl)]
  rfl

/-- C12: a client does not gain write access but by a SELECT acknowledged to it. -/
theorem C12_write_access_only_by_select {S : Settings} {n n' : Node} {ev : Event} {sent : List (Nat × Msg)} {st : Status}
    (hs : nodeStep S n ev = .ok n' sent st) {fd : Nat} (hstay : Stays fd ev) {c c' : Client} (hc : getClient n fd = some c)
    (hc' : getClient n' fd = some c') (hw : c.writable = false) (hw' : c'.writable = true) :
    ∃ e argv args, ev = .request fd e argv ∧ Asks n fd e argv .select args ∧ GotOk fd sent := by
  rcases client_step hs hc' with ⟨rfl, -⟩ | ⟨c0, hc0, hr | hb⟩
  · exact absurd rfl hstay
  · rw [hc] at hc0; injection hc0 with hc0; subst hc0
    obtain ⟨e, argv, p, i, m, n1, rest, rfl, hp, hpc, -, -, hce, hsent, -⟩ := hr.ex
    cases hh : p.h with
    | select =>
      rw [hh] at hce
      cases hce with
      | same => rw [hw] at hw'; exact absurd hw' (by simp)
      | select name r w hn hr hw =>
        exact ⟨e, argv, _, rfl, ⟨p, hp, hh, rfl⟩, by unfold GotOk; rw [hsent]; rfl⟩
    | _ =>
      rw [hh] at hce
      cases hce <;> exact absurd (hw'.symm.trans hw) (by simp)
  · rw [hc] at hc0; injection hc0 with hc0; subst hc0
    rw [hb.writable, hw] at hw'
    exact absurd hw' (by simp)

/-- `foo` gets a password and is public; 6 selects it again, without the password. -/
def exReadonly : List Event := exEvents ++
  [.request 5 (exE 4) [str "NSSET", str "foo", str "password", str "s3"],
   .request 6 (exE 5) [str "SELECT", str "foo"],
   .request 6 (exE 6) [str "SET", str "k", str "w"],
   .request 6 (exE 7) [str "DEL", str "k"],
   .request 6 (exE 8) [str "GET", str "k"],
   .request 6 (exE 9) [str "SELECT", str "foo", str "s3"],
   .request 6 (exE 10) [str "SET", str "k", str "w"]]

set_option maxRecDepth 100000 in
theorem C12_example : ranSent exS exReadonly = ranSent exS exEvents ++
    [[(5, .reply .ok)], [(6, .reply .ok)], [(6, .reply (.err "Namespace is in read-only mode"))],
     [(6, .reply (.err "Namespace is in read-only mode"))], [(6, .reply (.bulk (str "v")))],
     [(6, .reply .ok)], [(6, .reply (.bulk (str "k")))]] := rfl

/-! ### C13 -/

/-- Requests for administrators: creating, deleting, configuring and loading namespaces, HOOKS, MIRROR, MASTER, INDEX,
    DATA, NSJUMP, and SET and DEL with a timestamp. -/
def forAdmins (h : Handler) (argv : List Bytes) : Bool :=
  match h with
  | .nsnew | .nsdel | .nsset | .reload | .hooks | .mirror | .master => true
  | .ds .nsjump | .ds .index | .ds .data => true
  | .ds .set => argv.length == 4
  | .ds .del => argv.length == 3
  | _ => false

/-- C13: such a request of a client that is not administrator is refused and changes nothing. -/
theorem C13_admin_requests_refused {S : Settings} {n n' : Node} {fd : Nat} {e : Env} {argv : List Bytes}
    {sent : List (Nat × Msg)} {st : Status} (h : Reachable S n) (hs : request S n fd e argv = .ok n' sent st) {p : Picked}
    (hp : pick n fd e argv = some p) (hf : forAdmins p.h p.argv = true) (ha : p.c.admin = false) :
    Refused n n' fd sent := by
  have hran := request_ran hs hp
  have hacts : p.h.acts = true → p.h ≠ .flush → Refused n n' fd sent := by
    intro hacts hnf
    rcases hran.acts (pick_some hp).1 hacts with hr | ⟨-, n1, c1, i, rfl, he, -⟩
    · exact hr
    · have hadm : ({ p.c with executed := some i } : Client).admin ≠ true := by simp [ha]
      generalize p.h = ph at he hacts hnf
      cases he with
      | same h m hd hq => obtain ⟨s, hs⟩ := hq hacts; simp [errMsg, Reply.ok] at hs
      | ds d => simp [Handler.acts] at hacts
      | nsnew name br s ha' => exact absurd ha' hadm
      | nsdel name x ha' => exact absurd ha' hadm
      | nsset a b prop value target x y ha' => exact absurd ha' hadm
      | reload name x br s ha' => exact absurd ha' hadm
      | flush => exact absurd rfl hnf
  have hplain : (∀ c1 : Client, c1.admin = false → runHandler S p.e n c1 p.r p.h p.argv = say n c1 (some (.reply errDenied))) →
      Refused n n' fd sent := by
    intro hall
    obtain ⟨n1, c1, m, i, -, -, hr, hn, hsent⟩ := hran.ex
    rw [hall _ (by exact ha)] at hr
    obtain ⟨rfl, rfl, rfl, -⟩ := say_inj hr
    have hpost := post_rest p.e fd (putClient n1 fd (some { p.c with executed := some i })) { p.c with executed := some i }
    refine ⟨⟨"Permission denied", by rw [hsent]; rfl⟩, ?_, p.c, { p.c with executed := some i }, (pick_some hp).1, ?_, rfl⟩
    · rw [hn]; exact ⟨hpost.2.1, hpost.1, hpost.2.2⟩
    · rw [hn]; exact post_me _ _ _ _
  cases hh : p.h with
  | ds d =>
    rw [hh] at hf
    refine ds_refused h hs hp hh (ds_denied _ d p.argv ha ?_ _ _)
    cases d <;> first | rfl | exact hf | simp [forAdmins] at hf
  | nsnew => exact hacts (by rw [hh]; rfl) (by rw [hh]; simp)
  | nsdel => exact hacts (by rw [hh]; rfl) (by rw [hh]; simp)
  | nsset => exact hacts (by rw [hh]; rfl) (by rw [hh]; simp)
  | reload => exact hacts (by rw [hh]; rfl) (by rw [hh]; simp)
  | hooks => exact hplain (fun c1 h1 => by rw [hh]; simp [runHandler, h1])
  | mirror => exact hplain (fun c1 h1 => by rw [hh]; simp [runHandler, h1])
  | master => exact hplain (fun c1 h1 => by rw [hh]; simp [runHandler, h1])
  | _ => rw [hh] at hf; simp [forAdmins] at hf

/-- An AUTH of the connection `fd` acknowledged with OK. -/
def AckedAuth (S : Settings) (n : Node) (fd : Nat) (ev : Event) (sent : List (Nat × Msg)) : Prop :=
  ∃ e argv args pwd, ev = .request fd e argv ∧ S.adminpwd = some pwd ∧ Asks n fd e argv .auth args ∧ GotOk fd sent

/-- One event makes a client administrator only as an acknowledged AUTH. -/
theorem admin_step {S : Settings} {n n' : Node} {ev : Event} {sent : List (Nat × Msg)} {st : Status}
    (hpw : S.adminpwd ≠ none) (hs : nodeStep S n ev = .ok n' sent st) {fd : Nat} {c' : Client}
    (hc' : getClient n' fd = some c') (ha' : c'.admin = true) :
    (∃ c, getClient n fd = some c ∧ c.admin = true ∧ Stays fd ev) ∨ AckedAuth S n fd ev sent := by
  rcases client_step hs hc' with ⟨rfl, rfl⟩ | ⟨c, hc, hr | hb⟩
  · exfalso
    simp only [newClient] at ha'
    cases hq : S.adminpwd with
    | none => exact hpw hq
    | some x => rw [hq] at ha'; simp at ha'
  · obtain ⟨e, argv, p, i, m, n1, rest, rfl, hp, hpc, -, -, hce, hsent, -⟩ := hr.ex
    by_cases hca : c.admin = true
    · exact Or.inl ⟨c, hc, hca, trivial⟩
    · right
      generalize hh : p.h = ph at hce
      cases hce with
      | auth a q pwd hargs hq hcs => exact ⟨e, argv, _, pwd, rfl, hq, ⟨p, hp, hh, rfl⟩, by unfold GotOk; rw [hsent]; rfl⟩
      | secure a w h pwd nonce hargs hq hcs => exact ⟨e, argv, _, pwd, rfl, hq, ⟨p, hp, hh, rfl⟩, by unfold GotOk; rw [hsent]; rfl⟩
      | _ => exact absurd ha' hca
  · left
    refine ⟨c, hc, by rw [← hb.admin]; exact ha', ?_⟩
    cases ev with
    | connect fd1 =>
      intro h1; subst h1
      simp only [nodeStep] at hs; injection hs with h1 _ _; subst h1
      rw [getClient_put, if_pos rfl] at hc'
      injection hc' with hc'; subst hc'
      exfalso
      simp only [newClient] at ha'
      cases hq : S.adminpwd with
      | none => exact hpw hq
      | some x => rw [hq] at ha'; simp at ha'
    | disconnect fd1 =>
      intro h1; subst h1
      simp only [nodeStep] at hs
      injection hs with h1 _ _; subst h1
      rw [getClient_put, if_pos rfl] at hc'
      exact absurd hc' (by simp)
    | restart order =>
      simp only [nodeStep] at hs
      split at hs
      · rename_i n2 hn2
        injection hs with h1 _ _; subst h1
        have := restart_clients hn2
        unfold getClient at hc'; rw [this] at hc'; simp at hc'
      · exact absurd hs (by simp)
    | _ => trivial

/-- C13: with an administrator password, a client is administrator only if an AUTH of this connection was acknowledged:
    the execution splits at that request, and the connection was not closed, nor the process restarted, since. -/
theorem C13_admin_needs_auth {S : Settings} (hpw : S.adminpwd ≠ none) {n0 n : Node} {l : List (Event × List (Nat × Msg))}
    (h0 : Started S n0) (h : NodeRun S n0 l n) {fd : Nat} {c : Client} (hc : getClient n fd = some c) (ha : c.admin = true) :
    ∃ l1 ev sent l2 n1, l = l1 ++ (ev, sent) :: l2 ∧ NodeRun S n0 l1 n1 ∧ AckedAuth S n1 fd ev sent ∧ ∀ x ∈ l2, Stays fd x.1 := by
  have key : ∀ {a b : Node} {l : List (Event × List (Nat × Msg))}, NodeRun S a l b → ∀ {c : Client}, getClient b fd = some c → c.admin = true →
      (∃ c0, getClient a fd = some c0 ∧ c0.admin = true ∧ ∀ x ∈ l, Stays fd x.1) ∨
      ∃ l1 ev sent l2 n1, l = l1 ++ (ev, sent) :: l2 ∧ NodeRun S a l1 n1 ∧ AckedAuth S n1 fd ev sent ∧ ∀ x ∈ l2, Stays fd x.1 := by
    intro a b l h
    induction h with
    | nil n => intro c hc ha; exact Or.inl ⟨c, hc, ha, by simp⟩
    | @cons n n1 n2 ev sent st l hg hs h ih =>
      intro c hc ha
      rcases ih hc ha with ⟨c1, hc1, ha1, hst⟩ | ⟨l1, ev', sent', l2, m, rfl, hr, hack, hst⟩
      · rcases admin_step hpw hs hc1 ha1 with ⟨c0, hc0, ha0, hs0⟩ | hack
        · refine Or.inl ⟨c0, hc0, ha0, ?_⟩
          intro x hx
          rcases List.mem_cons.1 hx with rfl | hx
          · exact hs0
          · exact hst x hx
        · exact Or.inr ⟨[], ev, sent, l, n, rfl, .nil _, hack, hst⟩
      · exact Or.inr ⟨(ev, sent) :: l1, ev', sent', l2, m, rfl, .cons hg hs hr, hack, hst⟩
  rcases key h hc ha with ⟨c0, hc0, -, -⟩ | h1
  · exfalso
    obtain ⟨u, h0⟩ := h0
    have h1 := boot_clients h0
    unfold getClient at hc0; rw [h1] at hc0; simp at hc0
  · exact h1

set_option maxRecDepth 100000 in
/-- A client that gave a wrong password, then asks for administrative things. -/
theorem C13_example : ranSent exS (exEvents ++
    [.request 6 (exE 4) [str "AUTH", str "pv"],
     .request 6 (exE 5) [str "NSNEW", str "bar"],
     .request 6 (exE 6) [str "SET", str "k", str "w", str "1"],
     .request 6 (exE 7) [str "NSJUMP"],
     .request 6 (exE 8) [str "AUTH", str "pw"],
     .request 6 (exE 9) [str "NSNEW", str "bar"]]) = ranSent exS exEvents ++
    [[(6, .reply (.err "Access denied"))], [(6, .reply (.err "Permission denied"))], [(6, .reply (.err "Permission denied"))],
     [(6, .reply (.err "Permission denied"))], [(6, .reply .ok)], [(6, .reply .ok)]] := rfl

/-- `foo` becomes private, with a password; the client 6, which is in it, stays there. -/
def exPrivate : List Event := exEvents ++
  [.request 5 (exE 4) [str "NSSET", str "foo", str "password", str "s3"],
   .request 5 (exE 5) [str "NSSET", str "foo", str "public", str "0"]]

set_option maxRecDepth 100000 in
/-- C13 does not hold for reloads: FLUSH needs no right and loads the namespace again. -/
theorem C13_refuted : ∃ (n n' : Node) (c : Client) (sent : List (Nat × Msg)), Reachable exS n ∧ exS.adminpwd ≠ none ∧
    getClient n 6 = some c ∧ c.admin = false ∧ request exS n 6 (exE 6) [str "FLUSH"] = .ok n' sent .keep ∧ GotOk 6 sent ∧
    view exS 1001 n sent (.request 6 (exE 6) [str "FLUSH"]) = [(.reload, .ok)] :=
  ⟨ranNode exS exPrivate, _, _, _, ex_reachable exPrivate, by decide, rfl, rfl, rfl, rfl, rfl⟩

end Zdb
