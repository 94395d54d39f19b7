/-
C09 (worm mode), C33 (settings survive a restart), C34 (FLUSH), C45 (the mode is fixed once used).
-/
import Verif.Lemmas.Settings
import Verif.Props.Isolation
namespace Zdb

/-! ### C09 -/

/-- C09, user-key mode: a key stored when the events `tr'` begin, during which every SET and DEL finds the namespace in worm
    mode, still has its payload when they are over.  `tr'` may contain restarts and reloads (FLUSH is one). -/
theorem C09_last_write_is_kept {cfg : Option Mode} {u : Nat} {tr tr' : List (NsEvent × Reply)} {br : Branches} {s : Store}
    (h : UserRun cfg u (tr ++ tr') br s) (hw : ∀ e ∈ tr'.map (·.1), WormEvent e) {k p : Bytes} (hp : lastWrite k tr = some p) :
    lastWrite k (tr ++ tr') = some p := by
  obtain ⟨G, -, -, ha⟩ := h.inv
  have h1 := agrees_get [] _ ha k
  have h2 := agrees_get [] _ ((agrees_append _ _ _).1 ha).1 k
  unfold lastWrite at hp ⊢
  have h0 : (KV.get [] k).map (·.payload) = none := rfl
  rw [h0] at h1 h2
  rw [hp] at h2
  rw [← h1]
  obtain ⟨v, hv, hvp⟩ := Option.map_eq_some_iff.1 h2
  rw [List.map_append, specRun_app, specRun_worm hv hw, Option.map_some, hvp]

/-- C09, user-key mode, seen from clients: once a GET returned a payload, all GETs return it as long as the namespace is in
    worm mode. -/
theorem C09_get_is_stable {cfg : Option Mode} {u : Nat} {tr tr' : List (NsEvent × Reply)} {br : Branches} {s : Store}
    {c c' : Ctx} {name name' k p : Bytes} {r : Reply}
    (h : UserRun cfg u (tr ++ [(.cmd c .get [name, k], .bulk p)] ++ tr' ++ [(.cmd c' .get [name', k], r)]) br s)
    (hw : ∀ e ∈ tr'.map (·.1), WormEvent e) (hz : c'.conf.lock ≠ .frozen) : r = .bulk p := by
  obtain ⟨G, -, -, ha⟩ := h.inv
  rw [agrees_append, agrees_append, agrees_append] at ha
  obtain ⟨⟨⟨-, h1⟩, -⟩, h2⟩ := ha
  have e1 := h1.1 _ rfl
  have e2 := h2.1 _ rfl
  rw [List.map_append, List.map_append, specRun_app, specRun_app] at e2
  generalize specRun [] (tr.map (·.1)) = m at e1 e2
  simp only [specRead] at e1
  split at e1
  · exact absurd e1 (by simp)
  · rename_i hk
    split at e1
    · exact absurd e1 (by simp)
    · rename_i hk2
      split at e1
      · exact absurd e1 (by simp)
      · cases hv : m.get k with
        | none => rw [hv] at e1; exact absurd e1 (by simp [replyGet])
        | some v =>
          rw [hv] at e1
          have hm : specRun m ([((NsEvent.cmd c .get [name, k], Reply.bulk p) : NsEvent × Reply)].map (·.1)) = m := rfl
          rw [hm] at e2
          simp only [specRead, if_neg hk, if_neg hk2, if_neg hz, specRun_worm hv hw] at e2
          rw [e2, e1]

/-- C09, sequential mode, under the conditions of `SeqRun`. -/
theorem C09_seq_last_write_is_kept_partial {cfg : Option Mode} {u : Nat} {tr tr' : List (NsEvent × Reply)} {br : Branches} {s : Store}
    (h : SeqRun cfg u (tr ++ tr') br s) (hw : ∀ e ∈ tr'.map (·.1), WormEvent e) {k p : Bytes} (hp : lastSeqWrite k tr = some p) :
    lastSeqWrite k (tr ++ tr') = some p := by
  obtain ⟨G, -, -, ha⟩ := h.inv
  have hl := h.len
  rw [List.length_append] at hl
  unfold maxEvents at hl
  have h1 := seqAgrees_get [] _ ha k (by simp; omega)
  have h2 := seqAgrees_get [] _ ((seqAgrees_append _ _ _).1 ha).1 k (by simp; omega)
  unfold lastSeqWrite at hp ⊢
  have h0 : (Slots.get [] k).map (·.payload) = none := by unfold Slots.get; split <;> rfl
  rw [h0] at h1 h2
  rw [hp] at h2
  rw [← h1]
  obtain ⟨v, hv, hvp⟩ := Option.map_eq_some_iff.1 h2
  rw [List.map_append, specSeqRun_app, specSeqRun_worm hv hw, Option.map_some, hvp]

/-- C09 for a namespace among others: `k` has payload `p` at the moment `n1`; from then on the namespace is in worm mode,
    whatever clients do in it or elsewhere, with restarts; a GET that is not refused returns `p`. -/
theorem C09_get_on_the_node {S : Settings} {u : Nat} {n n1 n2 n3 : Node} {l l' : List (Event × List (Nat × Msg))}
    {tr tr' : List (NsEvent × Reply)} (hn : Reachable S n) (hlim : S.limit ≤ 2 ^ 31) (hcfg : S.cfg = none ∨ S.cfg = some .user)
    (h0 : storeOf n u = some (freshStore .user)) (h : Life S u n l tr n1) (h' : Life S u n1 l' tr' n2)
    (hlen : (tr ++ tr').length < maxEvents) (hworm : Along S (IsWorm u) n1 l') {k p : Bytes} (hp0 : lastWrite k tr = some p)
    {fd : Nat} {e : Env} {argv : List Bytes} {sent : List (Nat × Msg)} {st : Status} (hg : Guard S n2 (.request fd e argv))
    (hf : Fair n2 u (.request fd e argv)) (hs : request S n2 fd e argv = .ok n3 sent st) {q : Picked}
    (hp : pick n2 fd e argv = some q) (hd : q.h = .ds .get) (hu : q.r.uid = u) {name : Bytes} (ha : q.argv = [name, k])
    (hk : k ≠ []) (hk2 : k.length ≤ 255) (hz : q.r.conf.lock ≠ .frozen) : replyOf sent = .bulk p := by
  have hl := h.append h'
  obtain ⟨r2, hr2⟩ := Option.isSome_iff_exists.1 hl.ends
  have hrun := hl.userRun hn.inv hlim hcfg h0 (by omega) (s' := r2.store) (by unfold storeOf; rw [hr2]; rfl)
  have hlast := C09_last_write_is_kept hrun (h'.worm hworm) hp0
  have := C01_get_on_the_node hn hlim hcfg h0 hl hlen hg hf hs hp hd hu ha hk hk2 hz
  rw [hlast] at this
  exact this

/-- The same in sequential mode, under the conditions of `SeqLife`. -/
theorem C09_seq_get_on_the_node_partial {S : Settings} {u : Nat} {n n1 n2 n3 : Node} {l l' : List (Event × List (Nat × Msg))}
    {tr tr' : List (NsEvent × Reply)} (hn : Reachable S n) (hlim : S.limit ≤ 2 ^ 31) (hcfg : S.cfg = none ∨ S.cfg = some .seq)
    (h0 : storeOf n u = some (freshStore .seq)) (h : SeqLife S u n l tr n1) (h' : SeqLife S u n1 l' tr' n2)
    (hlen : (tr ++ tr').length < maxEvents) (hworm : Along S (IsWorm u) n1 l') {k p : Bytes} (hp0 : lastSeqWrite k tr = some p)
    {fd : Nat} {e : Env} {argv : List Bytes} {sent : List (Nat × Msg)} {st : Status} (hg : Guard S n2 (.request fd e argv))
    (hf : Fair n2 u (.request fd e argv)) (hs : request S n2 fd e argv = .ok n3 sent st) {q : Picked}
    (hp : pick n2 fd e argv = some q) (hd : q.h = .ds .get) (hu : q.r.uid = u) {name : Bytes} (ha : q.argv = [name, k])
    (hk : k ≠ []) (hk2 : k.length ≤ 255) (hz : q.r.conf.lock ≠ .frozen) (hnear0 : NearRun [] ((tr ++ tr').map (·.1)))
    (hnear : NearRun [] ((tr ++ tr' ++ [(NsEvent.cmd (ctxOf S q.e q.c q.r) .get [name, k], replyOf sent)]).map (·.1))) :
    replyOf sent = .bulk p := by
  have hl := h.append h'
  obtain ⟨r2, hr2⟩ := Option.isSome_iff_exists.1 hl.life.ends
  have hrun := hl.seqRun hn.inv hlim hcfg h0 hnear0 (by omega) (s' := r2.store) (by unfold storeOf; rw [hr2]; rfl)
  have hlast := C09_seq_last_write_is_kept_partial hrun (h'.life.worm hworm) hp0
  have := C03_get_on_the_node_partial hn hlim hcfg h0 hl hlen hg hf hs hp hd hu ha hk hk2 hz hnear
  rw [hlast] at this
  exact this

/-- The property named `worm` in NSSET. -/
def wordWorm : Bytes := [119, 111, 114, 109]

theorem nsProperty_worm {S : Settings} {x y : NsRec} {target prop value : Bytes} (h : nsProperty S x target prop value = .ok y) :
    y.conf.worm = x.conf.worm ∨ (prop = wordWorm ∧ y.conf.worm = (value.head? == some 49)) := by
  unfold nsProperty at h
  simp only at h
  repeat' split at h
  all_goals first
    | (cases h; done)
    | (injection h with h; subst h; first
        | (left; rfl)
        | (right; rename_i hp; exact ⟨by simpa [wordWorm] using hp, rfl⟩))

/-- C09: worm mode is left only by an acknowledged NSSET of the property `worm` of this namespace, made by an administrator;
    it survives restarts. -/
theorem C09_worm_mode_is_kept {S : Settings} {n n' : Node} {ev : Event} {sent : List (Nat × Msg)} {st : Status} (hn : Reachable S n)
    (hg : Guard S n ev) (hs : nodeStep S n ev = .ok n' sent st) {u : Nat} {r r' : NsRec} (hu : nsDeref n u = some r)
    (hu' : nsDeref n' u = some r') (hd : r.conf.name ≠ nameDefault) (hw : r.conf.worm = true) :
    r'.conf.worm = true ∨ ∃ fd e argv p a b prop value, ev = .request fd e argv ∧ pick n fd e argv = some p ∧ p.h = .nsset ∧
      p.c.admin = true ∧ p.argv = [a, b, prop, value] ∧ nsArg p.argv = .ok r.conf.name ∧ cstr prop = wordWorm ∧
      (cstr value).head? ≠ some 49 ∧ GotOk fd sent := by
  have hi := hn.inv
  cases ev with
  | request fd e argv =>
    rcases conf_request hi hg hs hu hu' with ⟨h1, -, -⟩ | h1
    · left; rw [h1]; exact hw
    · obtain ⟨p, hp, hh, hadm, a, b, prop, value, hargs, harg, y, hy, rfl, -, -⟩ := h1.ex
      rcases nsProperty_worm hy with h2 | ⟨h2, h3⟩
      · left; exact h2.trans hw
      · by_cases hv : (cstr value).head? = some 49
        · left; exact h3.trans (by rw [hv]; rfl)
        · right; exact ⟨fd, e, argv, p, a, b, prop, value, rfl, hp, hh, hadm, hargs, harg, h2, hv, h1.ok⟩
  | restart order =>
    left
    simp only [nodeStep] at hs
    cases hr : restartNode S n order with
    | none => rw [hr] at hs; exact absurd hs (by simp)
    | some n1 =>
      rw [hr] at hs
      injection hs with h1 _ _
      subst h1
      obtain ⟨hm, hru⟩ := nsDeref_some hu
      obtain ⟨r1, hr1, hu1, hc⟩ := restart_conf hi hg hr hm hd
      have hi' := (hi.restart hg hr).1
      obtain ⟨hm', hru'⟩ := nsDeref_some hu'
      have : r1 = r' := uid_inj hi'.uids hr1 hm' (by rw [hu1, hru, hru'])
      subst this
      rw [hc]; exact hw
  | rotate v =>
    left
    simp only [nodeStep] at hs
    injection hs with h1 _ _
    subst h1
    rw [nsDeref_update _ _ _ (fun r => { r with store := jump r.store }) (fun _ => rfl), hu] at hu'
    simp only [Option.map_some, Option.some.injEq] at hu'
    rw [← hu']
    split <;> exact hw
  | connect fd =>
    left
    simp only [nodeStep] at hs
    injection hs with h1 _ _
    subst h1
    have hx : some r' = some r := hu'.symm.trans hu
    injection hx with hx; rw [hx]; exact hw
  | disconnect fd =>
    left
    simp only [nodeStep] at hs
    injection hs with h1 _ _
    subst h1
    have hx : some r' = some r := hu'.symm.trans hu
    injection hx with hx; rw [hx]; exact hw
  | tick us =>
    left
    simp only [nodeStep] at hs
    injection hs with h1 _ _
    subst h1
    have hx : some r' = some r := hu'.symm.trans hu
    injection hx with hx; rw [hx]; exact hw

/-- `foo` is put in worm mode. -/
def exWorm : List Event := exEvents ++ [.request 5 (exE 4) [str "NSSET", str "foo", str "worm", str "1"]]

set_option maxRecDepth 100000 in
/-- A concrete case: neither SET nor DEL nor a restart touches the key; new keys are accepted. -/
theorem C09_example : ranSent exS (exWorm ++
    [.request 6 (exE 5) [str "SET", str "k", str "w"], .request 6 (exE 6) [str "DEL", str "k"],
     .request 6 (exE 7) [str "SET", str "l", str "w"], .request 6 (exE 8) [str "GET", str "k"], .restart [1001],
     .connect 7, .request 7 (exE 9) [str "SELECT", str "foo"], .request 7 (exE 10) [str "SET", str "k", str "w"],
     .request 7 (exE 11) [str "GET", str "k"]]) = ranSent exS exWorm ++
    [[(6, .reply (.err "Namespace is protected by worm mode"))],
     [(6, .reply (.err "Cannot delete a key when namespace is in worm mode"))],
     [(6, .reply (.bulk (str "l")))], [(6, .reply (.bulk (str "v")))], [], [], [(7, .reply .ok)],
     [(7, .reply (.err "Namespace is protected by worm mode"))], [(7, .reply (.bulk (str "v")))]] := rfl

/-! ### C33 -/

/-- C33: after a restart a namespace (other than the default one, whose settings cannot be set) has the name, public flag,
    worm flag, quota and password it had; it is unlocked.  Excepted: an empty password. -/
theorem C33_settings_survive_partial {S : Settings} {n n' : Node} {order : List Nat} {sent : List (Nat × Msg)} {st : Status}
    (hn : Reachable S n) (hg : Guard S n (.restart order)) (hs : nodeStep S n (.restart order) = .ok n' sent st) {u : Nat}
    {r : NsRec} (hr : nsDeref n u = some r) (hd : r.conf.name ≠ nameDefault) (hp : r.conf.password ≠ some []) :
    ∃ r', nsDeref n' u = some r' ∧ r'.conf = { r.conf with lock := .unlocked } := by
  have hi := hn.inv
  simp only [nodeStep] at hs
  cases hr0 : restartNode S n order with
  | none => rw [hr0] at hs; exact absurd hs (by simp)
  | some n1 =>
    rw [hr0] at hs
    injection hs with h1 _ _
    subst h1
    obtain ⟨hm, hru⟩ := nsDeref_some hr
    obtain ⟨r1, hr1, hu1, hc⟩ := restart_conf hi hg hr0 hm hd
    refine ⟨r1, (nsDeref_iff (hi.restart hg hr0).1.uids).2 ⟨hr1, hu1.trans hru⟩, ?_⟩
    rw [hc]
    have hpw : loadedPass (r.conf.password.getD []) = r.conf.password := by
      cases hq : r.conf.password with
      | none => rfl
      | some p =>
        have := ((hi.desc r hm).pass hd p hq).1
        unfold loadedPass
        rw [Option.getD_some, if_neg (by rintro rfl; exact hp hq), cstr_eq this]
    rw [hpw]

/-- C33: the names of the namespaces are the same after a restart. -/
theorem C33_names_survive {S : Settings} {n n' : Node} {order : List Nat} {sent : List (Nat × Msg)} {st : Status}
    (hn : Reachable S n) (hg : Guard S n (.restart order)) (hs : nodeStep S n (.restart order) = .ok n' sent st) (name : Bytes) :
    HasName n' name ↔ HasName n name := by
  have hi := hn.inv
  simp only [nodeStep] at hs
  cases hr0 : restartNode S n order with
  | none => rw [hr0] at hs; exact absurd hs (by simp)
  | some n1 =>
    rw [hr0] at hs
    injection hs with h1 _ _
    subst h1
    obtain ⟨hi', -, hall⟩ := hi.restart hg hr0
    have hname : ∀ r' ∈ recs n1, ∀ r ∈ recs n, r'.uid = r.uid → r'.conf.name = r.conf.name := by
      intro r' hr' r hr hu
      obtain ⟨r0, h0, hu0, _, _, conf, -, -, -, hl, hc⟩ := hall r' hr'
      have : r0 = r := uid_inj hi.uids h0 hr (hu0.symm.trans hu)
      subst this
      have hcn : conf.name = r0.conf.name := by
        unfold loadDesc at hl
        simp only at hl
        repeat' split at hl
        all_goals first
          | (cases hl; done)
          | (simp only [Option.some.injEq, Prod.mk.injEq] at hl; rw [← hl.1]; rfl)
      rw [hc]
      split
      · exact hcn
      · exact hcn
    constructor
    · rintro ⟨r', hr', rfl⟩
      obtain ⟨r, hr, hu, -⟩ := hall r' (mem_recs.2 hr')
      exact ⟨r, mem_recs.1 hr, (hname r' (mem_recs.2 hr') r hr hu).symm⟩
    · rintro ⟨r, hr, rfl⟩
      obtain ⟨r', hr', hu⟩ := restart_keeps hi hg hr0 (mem_recs.2 hr)
      exact ⟨r', mem_recs.1 hr', hname r' hr' r (mem_recs.2 hr) hu⟩

set_option maxRecDepth 100000 in
/-- A concrete case: `foo` gets a password, a quota and is not public any more; after a restart the password is needed and
    the quota is applied. -/
theorem C33_example : ranSent exS (exEvents ++
    [.request 5 (exE 4) [str "NSSET", str "foo", str "password", str "s3"],
     .request 5 (exE 5) [str "NSSET", str "foo", str "public", str "0"],
     .request 5 (exE 6) [str "NSSET", str "foo", str "maxsize", str "3"], .restart [1001], .connect 7,
     .request 7 (exE 7) [str "SELECT", str "foo"], .request 7 (exE 8) [str "SELECT", str "foo", str "s3"],
     .request 7 (exE 9) [str "SET", str "l", str "abc"]]) = ranSent exS exEvents ++
    [[(5, .reply .ok)], [(5, .reply .ok)], [(5, .reply .ok)], [], [], [(7, .reply (.err "Namespace protected and private"))], [(7, .reply .ok)],
     [(7, .reply (.err "No space left on this namespace"))]] := rfl

set_option maxRecDepth 100000 in
/-- C33 is false for a password that begins with a NUL byte: it protects `foo` (clients can only read), until the restart,
    after which anybody writes. -/
theorem C33_refuted : ranSent exS (exEvents ++
    [.request 5 (exE 4) [str "NSSET", str "foo", str "password", [0, 120]], .connect 7,
     .request 7 (exE 5) [str "SELECT", str "foo"], .request 7 (exE 6) [str "SET", str "l", str "abc"],
     .restart [1001], .connect 8, .request 8 (exE 7) [str "SELECT", str "foo"],
     .request 8 (exE 8) [str "SET", str "l", str "abc"]]) = ranSent exS exEvents ++
    [[(5, .reply .ok)], [], [(7, .reply .ok)], [(7, .reply (.err "Namespace is in read-only mode"))], [], [], [(8, .reply .ok)],
     [(8, .reply (.bulk (str "l")))]] := rfl

/-! ### C34 -/

/-- C34 is false in every state: an acknowledged FLUSH of a user-key namespace changes neither what GET returns nor DBSIZE,
    for any key and client. -/
theorem C34_flush_keeps_everything {S : Settings} {u : Nat} {n n1 n2 : Node} {l : List (Event × List (Nat × Msg))}
    {tr : List (NsEvent × Reply)} (hn : Reachable S n) (hlim : S.limit ≤ 2 ^ 31) (hcfg : S.cfg = none ∨ S.cfg = some .user)
    (h0 : storeOf n u = some (freshStore .user)) (h : Life S u n l tr n1) (hlen : tr.length < maxEvents)
    {fd : Nat} {e : Env} {argv : List Bytes} {sent : List (Nat × Msg)} {st : Status} (hg : Guard S n1 (.request fd e argv))
    (hs : request S n1 fd e argv = .ok n2 sent st) {p : Picked} (hp : pick n1 fd e argv = some p) (hd : p.h = .flush)
    (hu : p.r.uid = u) (hok : GotOk fd sent) {s1 s2 : Store} (h1 : storeOf n1 u = some s1) (h2 : storeOf n2 u = some s2) :
    (∀ (c : Ctx) (k : Bytes), c.u = u → getSingle c n2.br s2 k = getSingle c n1.br s1 k) ∧ cmdDbsize s2 = cmdDbsize s1 := by
  have hrun := h.userRun hn.inv hlim hcfg h0 (by omega) h1
  obtain ⟨G, hG, -, -⟩ := hrun.inv
  have hfiles := hG.files
  have hi : NodeInv S n1 := h.nodeRun.inv hn.inv
  obtain ⟨r1, hr1, rfl⟩ := Option.map_eq_some_iff.1 h1
  obtain ⟨r2, hr2, rfl⟩ := Option.map_eq_some_iff.1 h2
  have hsw : ∀ p', pick n1 fd e argv = some p' → p'.h = .nsset → r2.store = r1.store := by
    intro p' hp' hh
    rw [hp] at hp'; injection hp' with hp'; subst hp'
    rw [hd] at hh; exact absurd hh (by simp)
  have hseg := seg_request hi hg hs hr1 hr2 hsw
  have hv : view S u n1 sent (.request fd e argv) = [(.reload, .ok)] := by
    have hrep : replyOf sent = .ok := by
      unfold GotOk at hok
      cases sent with
      | nil => exact absurd hok (by simp)
      | cons x l =>
        simp only [List.head?_cons, Option.some.injEq] at hok
        subst hok; rfl
    simp only [view, hp, viewRequest, hd, hrep, asksReload, hu, beq_self_eq_true, Bool.and_true]
    rfl
  rw [hv] at hseg
  generalize hb : n2.br = b at hseg ⊢
  generalize hq : r2.store = t at hseg ⊢
  cases hseg with
  | reload br s hr =>
    obtain ⟨b', t', k1, k2, -⟩ := UInv.reload hG S.cfg hcfg (hrun.room hG hlen)
    rw [hr] at k1
    injection k1 with k1 k1'
    subst k1; subst k1'
    refine ⟨?_, ?_⟩
    · intro c k hc
      subst hc
      rw [getSingle_spec k2, getSingle_spec hG]
    · unfold cmdDbsize
      rw [k2.entries, hG.entries]

set_option maxRecDepth 100000 in
/-- C34 refuted: FLUSH of the private `foo` is acknowledged; the key is still there. -/
theorem C34_refuted : ranSent exS (exPrivate ++
    [.connect 7, .request 7 (exE 9) [str "SELECT", str "foo", str "s3"], .request 7 (exE 10) [str "GET", str "k"],
     .request 7 (exE 11) [str "FLUSH"], .request 7 (exE 12) [str "GET", str "k"], .request 7 (exE 13) [str "DBSIZE"]]) =
    ranSent exS exPrivate ++ [[], [(7, .reply .ok)], [(7, .reply (.bulk (str "v")))], [(7, .reply .ok)],
     [(7, .reply (.bulk (str "v")))], [(7, .reply (.int 1))]] := rfl

/-! ### C45 -/

/-- C45, user-key mode: a namespace that `namespace_is_fresh` still calls fresh never acknowledged a SET nor a NSJUMP, and
    has its first files only. -/
theorem C45_fresh_means_unused {cfg : Option Mode} {u : Nat} {tr : List (NsEvent × Reply)} {br : Branches} {s : Store}
    (h : UserRun cfg u tr br s) (hf : isFresh s = true) :
    (∀ c argv b, (NsEvent.cmd c .set argv, Reply.bulk b) ∉ tr) ∧ (∀ c argv x, (NsEvent.cmd c .nsjump argv, Reply.simple x) ∉ tr) ∧
      s.ifiles.length = 1 ∧ s.dfiles.length = 1 := by
  obtain ⟨br0, br1, s1, h0, h1, h2⟩ := h.run
  have hm : cfg.getD .user = .user := by rcases h.hcfg with rfl | rfl <;> rfl
  rw [freshNs_eq, hm] at h1
  injection h1 with h1 h1'
  subst h1; subst h1'
  obtain ⟨G, hG, -, -, hset, hjump⟩ := UInv.grows h.hcfg h2 (freshStore_uinv br0 u h0) h.ev (freshStore_room _ h.len)
  simp only [isFresh, Bool.and_eq_true, beq_iff_eq] at hf
  obtain ⟨⟨hn, -⟩, hid⟩ := hf
  have hl : G.length = 1 := by have := hG.iid; omega
  refine ⟨?_, ?_, by rw [hG.irep.length, hl], by rw [hG.dlen, hl]⟩
  · intro c argv b hx
    have := hG.used (hset _ hx rfl)
    omega
  · intro c argv x hx
    have := hjump _ hx rfl
    simp only [List.length_cons, List.length_nil] at this
    omega

/-- C45, sequential mode, under the conditions of `SeqRun`. -/
theorem C45_seq_fresh_means_unused_partial {cfg : Option Mode} {u : Nat} {tr : List (NsEvent × Reply)} {br : Branches} {s : Store}
    (h : SeqRun cfg u tr br s) (hf : isFresh s = true) :
    (∀ c argv b, (NsEvent.cmd c .set argv, Reply.bulk b) ∉ tr) ∧ s.ifiles.length = 1 ∧ s.dfiles.length = 1 := by
  obtain ⟨G, hG, ha, hag⟩ := h.inv
  simp only [isFresh, Bool.and_eq_true, beq_iff_eq] at hf
  obtain ⟨⟨hn, -⟩, hid⟩ := hf
  have hl : G.length = 1 := by have := hG.iid; omega
  refine ⟨?_, by rw [hG.irep.length, hl], by rw [hG.dlen, hl]⟩
  intro c argv b hx
  have h1 := specSeqRun_length [] tr hag
  rw [← ha] at h1
  have h2 : (absSlots G).length = 0 := by
    have h3 : locs G = [] := List.length_eq_zero_iff.1 (by rw [← hG.next]; exact hn)
    simp [absSlots, h3]
  rw [h2] at h1
  have h4 : ackedSets tr = 0 := by simp at h1; omega
  unfold ackedSets at h4
  have h5 := List.length_eq_zero_iff.1 h4
  rw [List.filter_eq_nil_iff] at h5
  exact h5 _ hx rfl

/-- C45 on the node: an event that changes the mode of a namespace happens before any SET in it is acknowledged and
    before any change of files. -/
theorem C45_switch_on_the_node {S : Settings} {u : Nat} {n n1 n2 : Node} {l : List (Event × List (Nat × Msg))}
    {tr : List (NsEvent × Reply)} (hn : Reachable S n) (hlim : S.limit ≤ 2 ^ 31) (hcfg : S.cfg = none ∨ S.cfg = some .user)
    (h0 : storeOf n u = some (freshStore .user)) (h : Life S u n l tr n1) (hlen : tr.length ≤ maxEvents) {ev : Event}
    {sent : List (Nat × Msg)} {st : Status} (hg : Guard S n1 ev) (hs : nodeStep S n1 ev = .ok n2 sent st)
    (hu : (nsDeref n2 u).isSome = true) (hsw : Switches n1 u ev n2) :
    (∀ c argv b, (NsEvent.cmd c .set argv, Reply.bulk b) ∉ tr) ∧ (∀ c argv x, (NsEvent.cmd c .nsjump argv, Reply.simple x) ∉ tr) ∧
      ∃ s, storeOf n1 u = some s ∧ s.ifiles.length = 1 ∧ s.dfiles.length = 1 := by
  obtain ⟨r1, hr1⟩ := Option.isSome_iff_exists.1 h.ends
  obtain ⟨r2, hr2⟩ := Option.isSome_iff_exists.1 hu
  have hrun := h.userRun hn.inv hlim hcfg h0 hlen (s' := r1.store) (by unfold storeOf; rw [hr1]; rfl)
  have hi : NodeInv S n1 := h.nodeRun.inv hn.inv
  cases ev with
  | request fd e argv =>
    obtain ⟨p, hp, hh, hne⟩ := hsw
    simp only [storeOf, hr1, hr2, Option.map_some, ne_eq, Option.some.injEq] at hne
    rcases conf_request hi hg hs hr1 hr2 with ⟨-, -, h3⟩ | h3
    · exact absurd (h3 p hp hh) hne
    · obtain ⟨p', hp', -, -, a, b, prop, value, -, -, y, hy, rfl, hz, h63⟩ := h3.ex
      rcases (nsProperty_ok hz h63 hy).store with h4 | ⟨-, h4, -⟩
      · exact absurd h4 hne
      · obtain ⟨k1, k2, k3, k4⟩ := C45_fresh_means_unused hrun h4
        exact ⟨k1, k2, _, by unfold storeOf; rw [hr1]; rfl, k3, k4⟩
  | _ => exact absurd hsw (by simp [Switches])

/-- The same for a sequential namespace, under the conditions of `SeqLife`. -/
theorem C45_seq_switch_on_the_node_partial {S : Settings} {u : Nat} {n n1 n2 : Node} {l : List (Event × List (Nat × Msg))}
    {tr : List (NsEvent × Reply)} (hn : Reachable S n) (hlim : S.limit ≤ 2 ^ 31) (hcfg : S.cfg = none ∨ S.cfg = some .seq)
    (h0 : storeOf n u = some (freshStore .seq)) (h : SeqLife S u n l tr n1) (hnear : NearRun [] (tr.map (·.1)))
    (hlen : tr.length ≤ maxEvents) {ev : Event}
    {sent : List (Nat × Msg)} {st : Status} (hg : Guard S n1 ev) (hs : nodeStep S n1 ev = .ok n2 sent st)
    (hu : (nsDeref n2 u).isSome = true) (hsw : Switches n1 u ev n2) :
    (∀ c argv b, (NsEvent.cmd c .set argv, Reply.bulk b) ∉ tr) ∧
      ∃ s, storeOf n1 u = some s ∧ s.ifiles.length = 1 ∧ s.dfiles.length = 1 := by
  obtain ⟨r1, hr1⟩ := Option.isSome_iff_exists.1 h.life.ends
  obtain ⟨r2, hr2⟩ := Option.isSome_iff_exists.1 hu
  have hrun := h.seqRun hn.inv hlim hcfg h0 hnear hlen (s' := r1.store) (by unfold storeOf; rw [hr1]; rfl)
  have hi : NodeInv S n1 := h.life.nodeRun.inv hn.inv
  cases ev with
  | request fd e argv =>
    obtain ⟨p, hp, hh, hne⟩ := hsw
    simp only [storeOf, hr1, hr2, Option.map_some, ne_eq, Option.some.injEq] at hne
    rcases conf_request hi hg hs hr1 hr2 with ⟨-, -, h3⟩ | h3
    · exact absurd (h3 p hp hh) hne
    · obtain ⟨p', hp', -, -, a, b, prop, value, -, -, y, hy, rfl, hz, h63⟩ := h3.ex
      rcases (nsProperty_ok hz h63 hy).store with h4 | ⟨-, h4, -⟩
      · exact absurd h4 hne
      · obtain ⟨k1, k2, k3⟩ := C45_seq_fresh_means_unused_partial hrun h4
        exact ⟨k1, _, by unfold storeOf; rw [hr1]; rfl, k2, k3⟩
  | _ => exact absurd hsw (by simp [Switches])

/-- C45: whatever happened in a user-key namespace, it works in user-key mode, and all its index files say so (the mode
    byte is what decides when they are loaded again). -/
theorem C45_mode_on_disk {cfg : Option Mode} {u : Nat} {tr : List (NsEvent × Reply)} {br : Branches} {s : Store}
    (h : UserRun cfg u tr br s) : s.mode = .user ∧ ∀ f ∈ s.ifiles, (decIHeader f).mode = 0 := by
  obtain ⟨G, hG, -, -⟩ := h.inv
  refine ⟨hG.mode, ?_⟩
  intro f hf
  obtain ⟨i, hi, rfl⟩ := List.mem_iff_getElem.1 hf
  have := hG.irep.get i
  rw [List.getElem?_eq_getElem hi, eq_comm] at this
  obtain ⟨g, hg, hgf⟩ := Option.map_eq_some_iff.1 this
  have hlt := (List.getElem?_eq_some_iff.1 hg).1
  have hfiles := hG.files
  rw [← hgf, decIHeader_encFile 0 i (by decide) (by omega) g]
  rfl

/-- C45 for sequential namespaces, under the conditions of `SeqRun`. -/
theorem C45_seq_mode_on_disk_partial {cfg : Option Mode} {u : Nat} {tr : List (NsEvent × Reply)} {br : Branches} {s : Store}
    (h : SeqRun cfg u tr br s) : s.mode = .seq ∧ ∀ f ∈ s.ifiles, (decIHeader f).mode = 1 := by
  obtain ⟨G, hG, -, -⟩ := h.inv
  refine ⟨hG.mode, ?_⟩
  intro f hf
  obtain ⟨i, hi, rfl⟩ := List.mem_iff_getElem.1 hf
  have := hG.irep.get i
  rw [List.getElem?_eq_getElem hi, eq_comm] at this
  obtain ⟨g, hg, hgf⟩ := Option.map_eq_some_iff.1 this
  have hlt := (List.getElem?_eq_some_iff.1 hg).1
  have hfiles := hG.files
  rw [← hgf, decIHeader_encFile 1 i (by decide) (by omega) g]
  rfl

/-- The same server, started without `--mode`. -/
def exMix : Settings := { exS with cfg := none }

set_option maxRecDepth 100000 in
/-- A concrete case: the mode of `foo` is changed before its first key and not after, nor after a restart. -/
theorem C45_example : ranSent exMix [.connect 5, .connect 6, .request 5 (exE 0) [str "AUTH", str "pw"],
     .request 5 (exE 1) [str "NSNEW", str "foo"], .request 5 (exE 2) [str "NSSET", str "foo", str "mode", str "seq"],
     .request 6 (exE 3) [str "SELECT", str "foo"], .request 6 (exE 4) [str "SET", [], str "v"],
     .request 5 (exE 5) [str "NSSET", str "foo", str "mode", str "user"], .restart [1001], .connect 7,
     .request 7 (exE 6) [str "AUTH", str "pw"], .request 7 (exE 7) [str "NSSET", str "foo", str "mode", str "user"],
     .request 7 (exE 8) [str "SELECT", str "foo"], .request 7 (exE 9) [str "GET", [0,0,0,0,0,0,0,0]]] =
    [[], [], [(5, .reply .ok)], [(5, .reply .ok)], [(5, .reply .ok)], [(6, .reply .ok)], [(6, .reply (.bulk [0,0,0,0,0,0,0,0]))],
     [(5, .reply (.err "Cannot change mode of used namespace"))], [], [], [(7, .reply .ok)],
     [(7, .reply (.err "Cannot change mode of used namespace"))], [(7, .reply .ok)], [(7, .reply (.bulk (str "v")))]] := rfl

end Zdb
