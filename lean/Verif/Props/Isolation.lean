/-
C06: namespaces are isolated; and the theorems on one user-key or sequential namespace, said of a namespace among others.
-/
import Verif.Lemmas.Isolate
import Verif.Props.UserMap
import Verif.Props.Seq
import Verif.Props.Access
namespace Zdb

/-! ### C06 -/

/-- Executions of the node during which namespace `u` exists and does not change its mode, with what it sees. -/
inductive Sees (S : Settings) (u : Nat) : Node → List (Event × List (Nat × Msg)) → List (NsEvent × Reply) → Node → Prop where
  | nil (n : Node) (hu : (nsDeref n u).isSome = true) : Sees S u n [] [] n
  | cons {n n1 n2 : Node} {ev : Event} {sent : List (Nat × Msg)} {st : Status} {l : List (Event × List (Nat × Msg))}
      {tr : List (NsEvent × Reply)} (hu : (nsDeref n u).isSome = true) (hg : Guard S n ev)
      (hs : nodeStep S n ev = .ok n1 sent st) (hw : ¬ Switches n u ev n1) (h : Sees S u n1 l tr n2) :
      Sees S u n ((ev, sent) :: l) (view S u n sent ev ++ tr) n2

theorem Sees.starts {S : Settings} {u : Nat} {n n' : Node} {l : List (Event × List (Nat × Msg))} {tr : List (NsEvent × Reply)}
    (h : Sees S u n l tr n') : (nsDeref n u).isSome = true := by
  cases h with
  | nil n hu => exact hu
  | cons hu => exact hu

theorem Sees.nsRun {S : Settings} {u : Nat} {n n' : Node} {l : List (Event × List (Nat × Msg))} {tr : List (NsEvent × Reply)}
    (h : Sees S u n l tr n') (hi : NodeInv S n) : ∀ {s : Store}, storeOf n u = some s →
    ∃ s', storeOf n' u = some s' ∧ NsRun S.cfg u n.br s tr n'.br s' := by
  induction h with
  | nil n hu => exact fun h1 => ⟨_, h1, .nil _ _⟩
  | cons hu hg hs hw h ih =>
    intro s h1
    obtain ⟨r1, hr1⟩ := Option.isSome_iff_exists.1 h.starts
    obtain ⟨r, hr, hr0⟩ := Option.map_eq_some_iff.1 h1
    obtain ⟨s', h2, h3⟩ := ih (hi.step hg hs) (s := r1.store) (by unfold storeOf; rw [hr1]; rfl)
    subst hr0
    exact ⟨s', h2, (seg_step hi hg hs hr hr1 hw).nsRun h3⟩

/-- C06: what a namespace replies depends on its own commands and reloads only.  Two processes with the same settings, two
    executions during which namespace `u` exists, from moments where its files, its memory and its entries of the
    shared table are the same; other clients, other namespaces, and the rest of the shared table may be different.  If
    `u` receives the same commands (with the same settings of the namespace and rights of the client) and the same
    reloads, it gives the same replies, of all dataset commands, and ends with the same files and memory. -/
theorem C06_replies_depend_on_own_events {S : Settings} {u : Nat} {n1 n1' n2 n2' : Node} {l1 l2 : List (Event × List (Nat × Msg))}
    {tr1 tr2 : List (NsEvent × Reply)} (hn1 : Reachable S n1) (hn2 : Reachable S n2) (h1 : Sees S u n1 l1 tr1 n1')
    (h2 : Sees S u n2 l2 tr2 n2') (hs : storeOf n1 u = storeOf n2 u) (ht : SameTags u n1.br n2.br)
    (he : (ownPart tr1).map (·.1) = (ownPart tr2).map (·.1)) :
    ownPart tr1 = ownPart tr2 ∧ storeOf n1' u = storeOf n2' u ∧ SameTags u n1'.br n2'.br := by
  obtain ⟨r1, hr1⟩ := Option.isSome_iff_exists.1 h1.starts
  have e1 : storeOf n1 u = some r1.store := by unfold storeOf; rw [hr1]; rfl
  obtain ⟨s1', k1, k2⟩ := h1.nsRun hn1.inv e1
  obtain ⟨s2', k3, k4⟩ := h2.nsRun hn2.inv (hs ▸ e1)
  obtain ⟨j1, j2, j3⟩ := nsRun_det k2 k4 ht he
  exact ⟨j1, by rw [k1, k3, j2], j3⟩

/-- C06, from the creation of the namespace on: nothing that happened before (other namespaces, a namespace that was
    deleted, even one which had the same name or the same address) has an influence. -/
theorem C06_new_namespace_is_like_any_new_one {S : Settings} {u : Nat} {n1 n1' n2 n2' : Node} {m : Mode}
    {l1 l2 : List (Event × List (Nat × Msg))} {tr1 tr2 : List (NsEvent × Reply)} (hn1 : Reachable S n1) (hn2 : Reachable S n2)
    (h1 : Sees S u n1 l1 tr1 n1') (h2 : Sees S u n2 l2 tr2 n2') (hs1 : storeOf n1 u = some (freshStore m))
    (hs2 : storeOf n2 u = some (freshStore m)) (he : (ownPart tr1).map (·.1) = (ownPart tr2).map (·.1)) :
    ownPart tr1 = ownPart tr2 := by
  have hno : ∀ {n : Node}, Reachable S n → storeOf n u = some (freshStore m) → ∀ k, nsBranch n.br u k = [] := by
    intro n hn hs k
    obtain ⟨r, hr, hr0⟩ := Option.map_eq_some_iff.1 hs
    obtain ⟨hm, hu⟩ := nsDeref_some hr
    rw [← hu]
    exact hn.inv.used r hm (by rw [hr0]; cases m <;> rfl) k
  exact (C06_replies_depend_on_own_events hn1 hn2 h1 h2 (by rw [hs1, hs2])
    (fun k => by rw [hno hn1 hs1, hno hn2 hs2]) he).1

/-- C06, one command: a dataset command run by a client of one namespace leaves files, memory and settings of another
    namespace as they were, and any dataset command there gets the reply it would have got before. -/
theorem C06_command_elsewhere {S : Settings} {n n' : Node} {fd : Nat} {e : Env} {argv : List Bytes} {sent : List (Nat × Msg)}
    {st : Status} (hn : Reachable S n) (hs : request S n fd e argv = .ok n' sent st) {p : Picked} {d : DsCmd}
    (hp : pick n fd e argv = some p) (hd : p.h = .ds d) {v : Nat} (hv : v ≠ p.r.uid) {r : NsRec} (hr : nsDeref n v = some r) :
    nsDeref n' v = some r ∧ ∀ (c : Ctx) (d' : DsCmd) (argv' : List Bytes), c.u = v →
      (dsCommand c n'.br r.store d' argv').2 = (dsCommand c n.br r.store d' argv').2 := by
  rcases request_pick hs with ⟨hp', -⟩ | ⟨p', n1, c1, m, i, hp', hrun, hn', hsent⟩
  · rw [hp'] at hp; exact absurd hp (by simp)
  · rw [hp'] at hp
    injection hp with hp
    subst hp
    have hpost := post_rest p'.e fd (putClient n1 fd (some c1)) c1
    have he := runHandler_eff hrun
    obtain ⟨-, -, u0, key, rest, i', name, -, -, -, hder, -⟩ := pick_some hp'
    have hbr : n'.br = n1.br := by rw [hn']; exact hpost.1
    have hsl : n'.slots = n1.slots := by rw [hn']; exact hpost.2.1
    have hcon : ∀ {b b' : Branches}, SameTags v b b' → ∀ (c : Ctx) (d' : DsCmd) (argv' : List Bytes), c.u = v →
        (dsCommand c b' r.store d' argv').2 = (dsCommand c b r.store d' argv').2 := by
      intro b b' ht c d' argv' hc
      subst hc
      exact (dsCommand_congr ht r.store d' argv').rest.symm
    rw [hd] at he
    cases he with
    | same h m hd hq =>
      refine ⟨by rw [nsDeref_congr hsl]; exact hr, ?_⟩
      rw [hbr]; exact hcon (.refl _ _)
    | ds d br s rp h =>
      refine ⟨?_, ?_⟩
      · rw [nsDeref_congr hsl]
        rw [nsDeref_update _ _ _ (fun r => { r with store := s }) (fun _ => rfl)]
        have hne : (r.uid == p'.r.uid) = false := by rw [(nsDeref_some hr).2]; simpa using hv
        change (nsDeref n v).map _ = _
        rw [hr]
        simp only [Option.map_some, hne, Bool.false_eq_true, if_false]
      · rw [hbr]
        refine hcon (fun k => ?_)
        have := dsCommand_only (ctxOf S p'.e { p'.c with executed := some i } p'.r) n.br p'.r.store d p'.argv v k hv
        rw [h] at this
        exact this.symm

set_option maxRecDepth 100000 in
/-- A concrete case: two namespaces, the same key in both; deleting it in one, or the whole namespace, does not touch the
    other; a new namespace under the old name is empty. -/
theorem C06_example : ranSent exS (exEvents ++
    [.request 5 (exE 4) [str "SET", str "k", str "mine"], .request 6 (exE 5) [str "GET", str "k"],
     .request 6 (exE 6) [str "DEL", str "k"], .request 5 (exE 7) [str "GET", str "k"],
     .request 5 (exE 8) [str "NSDEL", str "foo"], .request 5 (exE 9) [str "NSNEW", str "foo"],
     .request 6 (exE 10) [str "GET", str "k"],
     .connect 7, .request 7 (exE 10) [str "SELECT", str "foo"], .request 7 (exE 11) [str "GET", str "k"],
     .request 7 (exE 12) [str "DBSIZE"], .request 5 (exE 13) [str "GET", str "k"]]) = ranSent exS exEvents ++
    [[(5, .reply (.bulk (str "k")))], [(6, .reply (.bulk (str "v")))], [(6, .reply .ok)], [(5, .reply (.bulk (str "mine")))],
     [(5, .reply .ok)], [(5, .reply .ok)], [(6, .reply (.err "Your active namespace is not available anymore (probably removed)."))], [], [(7, .reply .ok)],
     [(7, .reply .nil)], [(7, .reply (.int 0))], [(5, .reply (.bulk (str "mine")))]] := rfl

/-! ### one namespace among others -/

theorem Life.snoc {S : Settings} {u : Nat} {n n1 n2 : Node} {l : List (Event × List (Nat × Msg))} {tr : List (NsEvent × Reply)}
    (h : Life S u n l tr n1) {ev : Event} {sent : List (Nat × Msg)} {st : Status} (hg : Guard S n1 ev) (hf : Fair n1 u ev)
    (hs : nodeStep S n1 ev = .ok n2 sent st) (hw : ¬ Switches n1 u ev n2) (hu : (nsDeref n2 u).isSome = true) :
    Life S u n (l ++ [(ev, sent)]) (tr ++ view S u n1 sent ev) n2 := by
  induction h with
  | nil n hu0 =>
    have := Life.cons hu0 hg hf hs hw (.nil n2 hu)
    simpa using this
  | cons hu0 hg0 hf0 hs0 hw0 h0 ih =>
    rw [List.append_assoc]
    exact .cons hu0 hg0 hf0 hs0 hw0 (ih hg hf hs hw)

theorem SeqLife.snoc {S : Settings} {u : Nat} {n n1 n2 : Node} {l : List (Event × List (Nat × Msg))} {tr : List (NsEvent × Reply)}
    (h : SeqLife S u n l tr n1) {ev : Event} {sent : List (Nat × Msg)} {st : Status} (hg : Guard S n1 ev) (hf : Fair n1 u ev)
    (hs : nodeStep S n1 ev = .ok n2 sent st) (hw : ¬ Switches n1 u ev n2)
    (hc : ∀ s s1, storeOf n1 u = some s → storeOf n2 u = some s1 → CleanStep s s1)
    (hl : (.reload, .ok) ∈ view S u n1 sent ev → ∀ s, storeOf n1 u = some s → s.indexid = 0 ∨ 29 < fileLen s.ifiles s.indexid)
    (hu : (nsDeref n2 u).isSome = true) : SeqLife S u n (l ++ [(ev, sent)]) (tr ++ view S u n1 sent ev) n2 := by
  induction h with
  | nil n hu0 =>
    have := SeqLife.cons hu0 hg hf hs hw hc hl (.nil n2 hu)
    simpa using this
  | cons hu0 hg0 hf0 hs0 hw0 hc0 hl0 h0 ih =>
    rw [List.append_assoc]
    exact .cons hu0 hg0 hf0 hs0 hw0 hc0 hl0 (ih hg hf hs hw hc hl)

/-- A request that runs a dataset command in `u`: where it leads, and what `u` sees of it. -/
theorem ds_request {S : Settings} {n n' : Node} {fd : Nat} {e : Env} {argv : List Bytes} {sent : List (Nat × Msg)} {st : Status}
    (hs : request S n fd e argv = .ok n' sent st) {p : Picked} {d : DsCmd} (hp : pick n fd e argv = some p) (hd : p.h = .ds d) :
    (nsDeref n' p.r.uid).isSome = true ∧ ¬ Switches n p.r.uid (.request fd e argv) n' ∧
      view S p.r.uid n sent (.request fd e argv) = [(.cmd (ctxOf S p.e p.c p.r) d p.argv, replyOf sent)] := by
  refine ⟨?_, ?_, ?_⟩
  · obtain ⟨-, -, u0, key, rest, i', name, -, -, -, hder, -⟩ := pick_some hp
    rcases request_pick hs with ⟨hp', -⟩ | ⟨p', n1, c1, m, i, hp', hrun, hn', hsent⟩
    · rw [hp'] at hp; exact absurd hp (by simp)
    · rw [hp'] at hp
      injection hp with hp
      subst hp
      have hpost := post_rest p'.e fd (putClient n1 fd (some c1)) c1
      have he := runHandler_eff hrun
      have hsl : n'.slots = n1.slots := by rw [hn']; exact hpost.2.1
      have hr : (nsDeref n p'.r.uid).isSome = true := by
        rw [nsDeref_isSome]
        exact ⟨p'.r, (nsDeref_some hder).1, rfl⟩
      rw [hd] at he
      rw [nsDeref_congr hsl]
      cases he with
      | same h m hd hq => exact hr
      | ds d br s rp h =>
        rw [nsDeref_update _ _ _ (fun r => { r with store := s }) (fun _ => rfl), Option.isSome_map]
        exact hr
  · rintro ⟨p', hp', hh, -⟩
    rw [hp] at hp'
    injection hp' with hp'
    subst hp'
    rw [hd] at hh
    exact absurd hh (by simp)
  · simp only [view, hp, viewRequest, hd, if_true]

/-- C01 for a namespace among others: namespace `u` was created when the node was in state `n`, and the events `l`
    happened since, of all clients and namespaces, with restarts and reloads; `tr` is what `u` has seen of them.  Now a client
    whose namespace is `u`, not frozen, sends a GET of a key of 1 to 255 bytes: it receives the payload of the last
    acknowledged SET not followed by an acknowledged DEL. -/
theorem C01_get_on_the_node {S : Settings} {u : Nat} {n n1 n2 : Node} {l : List (Event × List (Nat × Msg))}
    {tr : List (NsEvent × Reply)} (hn : Reachable S n) (hlim : S.limit ≤ 2 ^ 31) (hcfg : S.cfg = none ∨ S.cfg = some .user)
    (h0 : storeOf n u = some (freshStore .user)) (h : Life S u n l tr n1) (hlen : tr.length < maxEvents)
    {fd : Nat} {e : Env} {argv : List Bytes} {sent : List (Nat × Msg)} {st : Status} (hg : Guard S n1 (.request fd e argv))
    (hf : Fair n1 u (.request fd e argv)) (hs : request S n1 fd e argv = .ok n2 sent st) {p : Picked}
    (hp : pick n1 fd e argv = some p) (hd : p.h = .ds .get) (hu : p.r.uid = u) {name k : Bytes} (ha : p.argv = [name, k])
    (hk : k ≠ []) (hk2 : k.length ≤ 255) (hz : p.r.conf.lock ≠ .frozen) :
    replyOf sent = match lastWrite k tr with
      | some v => .bulk v
      | none => .nil := by
  subst hu
  obtain ⟨h1, h2, h3⟩ := ds_request hs hp hd
  obtain ⟨r2, hr2⟩ := Option.isSome_iff_exists.1 h1
  have hlife := h.snoc hg hf (show nodeStep S n1 (.request fd e argv) = .ok n2 sent st from hs) h2 h1
  rw [h3, ha] at hlife
  have hrun := hlife.userRun hn.inv hlim hcfg h0 (by simp; omega) (s' := r2.store) (by unfold storeOf; rw [hr2]; rfl)
  exact C01_get_returns_last_acknowledged_set hrun hk hk2 hz

/-- C02 for a namespace among others: two lives of user-key namespaces with the same commands, whatever else happens on
    the two nodes and wherever they are restarted, give the same replies (cursor commands excepted). -/
theorem C02_restarts_of_the_node {S S' : Settings} {u u' : Nat} {n n1 m m1 : Node} {l l' : List (Event × List (Nat × Msg))}
    {tr tr' : List (NsEvent × Reply)} (hn : Reachable S n) (hm : Reachable S' m) (hlim : S.limit ≤ 2 ^ 31)
    (hlim' : S'.limit ≤ 2 ^ 31) (hcfg : S.cfg = none ∨ S.cfg = some .user) (hcc : S'.cfg = S.cfg)
    (h0 : storeOf n u = some (freshStore .user)) (h0' : storeOf m u' = some (freshStore .user))
    (h : Life S u n l tr n1) (h' : Life S' u' m l' tr' m1) (hlen : tr.length ≤ maxEvents) (hlen' : tr'.length ≤ maxEvents)
    (hc : cmdsOf tr = cmdsOf tr') : visible tr = visible tr' := by
  obtain ⟨r, hr⟩ := Option.isSome_iff_exists.1 h.ends
  obtain ⟨r', hr'⟩ := Option.isSome_iff_exists.1 h'.ends
  have e1 := h.userRun hn.inv hlim hcfg h0 hlen (s' := r.store) (by unfold storeOf; rw [hr]; rfl)
  have e2 := h'.userRun hm.inv hlim' (by rw [hcc]; exact hcfg) h0' hlen' (s' := r'.store) (by unfold storeOf; rw [hr']; rfl)
  rw [hcc] at e2
  exact C02_restarts_are_invisible e1 e2 hc

/-- C07 for a namespace among others. -/
theorem C07_dbsize_on_the_node {S : Settings} {u : Nat} {n n1 : Node} {l : List (Event × List (Nat × Msg))}
    {tr : List (NsEvent × Reply)} (hn : Reachable S n) (hlim : S.limit ≤ 2 ^ 31) (hcfg : S.cfg = none ∨ S.cfg = some .user)
    (h0 : storeOf n u = some (freshStore .user)) (h : Life S u n l tr n1) (hlen : tr.length ≤ maxEvents) {r : NsRec}
    (hr : nsDeref n1 u = some r) (c : Ctx) (hc : c.u = u) :
    ∃ keys : List (Bytes × Bytes), (keys.map (·.1)).Nodup ∧
      (∀ k p, (k, p) ∈ keys ↔ getSingle c n1.br r.store k = .bulk p) ∧
      cmdDbsize r.store = .int keys.length ∧ r.store.datasize = (keys.map (·.2.length)).sum :=
  C07_counters_are_exact (h.userRun hn.inv hlim hcfg h0 hlen (s' := r.store) (by unfold storeOf; rw [hr]; rfl)) c hc

/-- C03 for a namespace among others, under the conditions of `SeqLife`. -/
theorem C03_get_on_the_node_partial {S : Settings} {u : Nat} {n n1 n2 : Node} {l : List (Event × List (Nat × Msg))}
    {tr : List (NsEvent × Reply)} (hn : Reachable S n) (hlim : S.limit ≤ 2 ^ 31) (hcfg : S.cfg = none ∨ S.cfg = some .seq)
    (h0 : storeOf n u = some (freshStore .seq)) (h : SeqLife S u n l tr n1) (hlen : tr.length < maxEvents)
    {fd : Nat} {e : Env} {argv : List Bytes} {sent : List (Nat × Msg)} {st : Status} (hg : Guard S n1 (.request fd e argv))
    (hf : Fair n1 u (.request fd e argv)) (hs : request S n1 fd e argv = .ok n2 sent st) {p : Picked}
    (hp : pick n1 fd e argv = some p) (hd : p.h = .ds .get) (hu : p.r.uid = u) {name k : Bytes} (ha : p.argv = [name, k])
    (hk : k ≠ []) (hk2 : k.length ≤ 255) (hz : p.r.conf.lock ≠ .frozen)
    (hnear : NearRun [] ((tr ++ [(NsEvent.cmd (ctxOf S p.e p.c p.r) .get [name, k], replyOf sent)]).map (·.1))) :
    replyOf sent = match lastSeqWrite k tr with
      | some v => .bulk v
      | none => .nil := by
  subst hu
  obtain ⟨h1, h2, h3⟩ := ds_request hs hp hd
  obtain ⟨r2, hr2⟩ := Option.isSome_iff_exists.1 h1
  have hst : ∀ s s1, storeOf n1 p.r.uid = some s → storeOf n2 p.r.uid = some s1 → CleanStep s s1 := by
    intro s s1 hs1 hs2
    obtain ⟨q1, hq1, rfl⟩ := Option.map_eq_some_iff.1 hs1
    obtain ⟨q2, hq2, rfl⟩ := Option.map_eq_some_iff.1 hs2
    have hn1 : NodeInv S n1 := h.life.nodeRun.inv hn.inv
    have hseg := seg_step hn1 hg (show nodeStep S n1 (.request fd e argv) = .ok n2 sent st from hs) hq1 hq2 h2
    rw [h3] at hseg
    generalize hb : n2.br = b at hseg
    generalize hq : q2.store = t at hseg
    cases hseg with
    | cmd c d argv r br' s' hu h =>
      have := (C49_reads_change_nothing (ctxOf S p.e p.c p.r) n1.br q1.store .get p.argv (by simp)).2
      rw [h] at this
      left
      rw [← this]
  have hlife := h.snoc hg hf (show nodeStep S n1 (.request fd e argv) = .ok n2 sent st from hs) h2 hst
    (by rw [h3]; intro hm; simp at hm) h1
  rw [h3, ha] at hlife
  have hrun := hlife.seqRun hn.inv hlim hcfg h0 hnear (by simp; omega) (s' := r2.store) (by unfold storeOf; rw [hr2]; rfl)
  exact C03_get_returns_last_acknowledged_set_partial hrun hk hk2 hz

/-- C05 for a namespace among others, under the conditions of `SeqLife`. -/
theorem C05_restarts_of_the_node_partial {S S' : Settings} {u u' : Nat} {n n1 m m1 : Node} {l l' : List (Event × List (Nat × Msg))}
    {tr tr' : List (NsEvent × Reply)} (hn : Reachable S n) (hm : Reachable S' m) (hlim : S.limit ≤ 2 ^ 31)
    (hlim' : S'.limit ≤ 2 ^ 31) (hcfg : S.cfg = none ∨ S.cfg = some .seq) (hcfg' : S'.cfg = none ∨ S'.cfg = some .seq)
    (h0 : storeOf n u = some (freshStore .seq)) (h0' : storeOf m u' = some (freshStore .seq))
    (h : SeqLife S u n l tr n1) (h' : SeqLife S' u' m l' tr' m1) (hlen : tr.length ≤ maxEvents) (hlen' : tr'.length ≤ maxEvents)
    (hnear : NearRun [] (tr.map (·.1))) (hnear' : NearRun [] (tr'.map (·.1)))
    (hc : cmdsOf tr = cmdsOf tr') : visible tr = visible tr' := by
  obtain ⟨r, hr⟩ := Option.isSome_iff_exists.1 h.life.ends
  obtain ⟨r', hr'⟩ := Option.isSome_iff_exists.1 h'.life.ends
  have e1 := h.seqRun hn.inv hlim hcfg h0 hnear hlen (s' := r.store) (by unfold storeOf; rw [hr]; rfl)
  have e2 := h'.seqRun hm.inv hlim' hcfg' h0' hnear' hlen' (s' := r'.store) (by unfold storeOf; rw [hr']; rfl)
  exact C05_restarts_are_invisible_partial e1 e2 hc

/-! ### a concrete life -/

/-- A test of the conditions of `Life` for an event which is not an NSSET. -/
def fairB (n : Node) (u : Nat) : Event → Bool
  | .request fd e argv => e.io.iapp.isNone && e.io.iflag.isNone && e.io.iover.isNone &&
      argv.all (fun b => decide (b.length ≤ 2 ^ 23)) &&
      (match nsDeref n u with
       | some r => decide (r.conf.maxsize < 2 ^ 63)
       | none => false) &&
      (match pick n fd e argv with
       | some p => (match p.h with
         | .nsset => false
         | _ => true)
       | none => true)
  | _ => true

/-- Running events, with what `u` sees. -/
def runLife (S : Settings) (u : Nat) : Node → List Event → Option (Node × List (NsEvent × Reply))
  | n, [] => if (nsDeref n u).isSome then some (n, []) else none
  | n, ev :: l =>
    if (nsDeref n u).isSome && guardB n ev && fairB n u ev then
      match nodeStep S n ev with
      | .ok n1 sent _ =>
        match runLife S u n1 l with
        | some (n', tr) => some (n', view S u n sent ev ++ tr)
        | none => none
      | _ => none
    else none

theorem fairB_fair {n : Node} {u : Nat} {ev : Event} (h : fairB n u ev = true) : Fair n u ev := by
  cases ev with
  | request fd e argv =>
    simp only [fairB, Bool.and_eq_true, Option.isNone_iff_eq_none, List.all_eq_true, decide_eq_true_eq] at h
    obtain ⟨⟨⟨⟨⟨h1, h2⟩, h3⟩, h4⟩, h5⟩, -⟩ := h
    refine ⟨⟨h1, h2, h3⟩, h4, ?_⟩
    intro r hr
    rw [hr] at h5
    simpa using h5
  | _ => trivial

theorem fairB_stays {n n' : Node} {u : Nat} {ev : Event} (h : fairB n u ev = true) : ¬ Switches n u ev n' := by
  cases ev with
  | request fd e argv =>
    rintro ⟨p, hp, hh, -⟩
    simp only [fairB, Bool.and_eq_true] at h
    have := h.2
    rw [hp] at this
    simp only [hh] at this
    exact absurd this (by simp)
  | _ => exact fun h => h

theorem runLife_life {S : Settings} {m : Mode} (hm : S.cfg = some m) {u : Nat} {n n' : Node} {evs : List Event}
    {tr : List (NsEvent × Reply)} (hi : NodeInv S n) (h : runLife S u n evs = some (n', tr)) : ∃ l, Life S u n l tr n' := by
  induction evs generalizing n tr with
  | nil =>
    simp only [runLife] at h
    split at h
    · rename_i hu
      simp only [Option.some.injEq, Prod.mk.injEq] at h
      obtain ⟨rfl, rfl⟩ := h
      exact ⟨[], .nil _ hu⟩
    · exact absurd h (by simp)
  | cons ev evs ih =>
    simp only [runLife] at h
    split at h
    · rename_i hg
      simp only [Bool.and_eq_true] at hg
      split at h
      · rename_i n1 sent st hs
        split at h
        · rename_i n2 l2 h2
          simp only [Option.some.injEq, Prod.mk.injEq] at h
          obtain ⟨rfl, rfl⟩ := h
          have hgu := guardB_ok hm hi hg.1.2
          obtain ⟨l, hl⟩ := ih (hi.step hgu hs) h2
          exact ⟨_, .cons hg.1.1 hgu (fairB_fair hg.2) hs (fairB_stays hg.2) hl⟩
        · exact absurd h (by simp)
      · exact absurd h (by simp)
    · exact absurd h (by simp)

/-- Two namespaces are created; a client works in the first one. -/
def exBirth : List Event :=
  [.connect 5, .connect 6, .request 5 (exE 0) [str "AUTH", str "pw"], .request 5 (exE 1) [str "NSNEW", str "foo"]]

def exLife : List Event :=
  [.request 6 (exE 2) [str "SELECT", str "foo"], .request 6 (exE 3) [str "SET", str "k", str "v"],
   .request 5 (exE 4) [str "SET", str "k", str "w"], .request 6 (exE 5) [str "SET", str "l", str "x"], .restart [1001],
   .connect 7, .request 7 (exE 6) [str "SELECT", str "foo"], .request 7 (exE 7) [str "DEL", str "l"]]

set_option maxRecDepth 100000 in
/-- The hypotheses of the theorems above are met: the life of the namespace `foo` from its creation, with another namespace
    in use and a restart in the middle. -/
theorem exLife_life : ∃ n n1 l tr, Reachable exS n ∧ storeOf n 1001 = some (freshStore .user) ∧ Life exS 1001 n l tr n1 ∧
    lastWrite (str "k") tr = some (str "v") ∧ lastWrite (str "l") tr = none ∧ tr.length < maxEvents := by
  have hr := ran_reachable (S := exS) (m := .user) rfl exNode_started exBirth
  have hlive : (runLife exS 1001 (ranNode exS exBirth) exLife).isSome = true := by decide +kernel
  obtain ⟨⟨n1, tr⟩, h⟩ := Option.isSome_iff_exists.1 hlive
  obtain ⟨l, hl⟩ := runLife_life (m := .user) rfl hr.inv h
  have htr : tr = ((runLife exS 1001 (ranNode exS exBirth) exLife).map (·.2)).getD [] := by rw [h]; rfl
  refine ⟨_, n1, l, tr, hr, rfl, hl, ?_, ?_, ?_⟩
  · rw [htr]; decide +kernel
  · rw [htr]; decide +kernel
  · rw [htr]; decide +kernel

end Zdb
