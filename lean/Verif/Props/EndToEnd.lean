/-
C65: what one client has stored, every client reads, over the network.
-/
import Verif.Lemmas.EndToEnd
namespace Zdb.Server

open Zdb.Wire

/-- The reply to a client whose namespace was removed. -/
def errGone : Reply := .err "Your active namespace is not available anymore (probably removed)."

/-- The reply of a GET. -/
def gotten (v : Option Bytes) : Reply :=
  match v with
  | some p => .bulk p
  | none => .nil

theorem run_split {S : Settings} {n n' : Node} {l1 l2 : List (Event × List (Nat × Msg))} (h : NodeRun S n (l1 ++ l2) n') :
    ∃ n1, NodeRun S n l1 n1 ∧ NodeRun S n1 l2 n' := by
  induction l1 generalizing n with
  | nil => exact ⟨n, .nil _, h⟩
  | cons x l1 ih =>
    cases h with
    | cons hg hs h =>
      obtain ⟨n1, h1, h2⟩ := ih h
      exact ⟨n1, .cons hg hs h1, h2⟩

/-- C65, on the node.  In an execution of a user-key process from its first start, with any number of clients and
    namespaces, restarts and reloads, a client asks GET of a key of 1 to 255 bytes.  It is told the payload of the last SET
    accepted for this key, from any client, in the namespace it has selected, if no DEL was accepted since and the namespace is
    still the one; otherwise that there is none.  Or it is told that the namespace is frozen, or was removed;
    this only if NSSET, or NSDEL, was asked before.

    Missing: masters, whose requests have one more argument; failing index writes (C41); namespaces in sequential mode (C03). -/
theorem C65_get_partial {S : Settings} {n0 n : Node} {l : List (Event × List (Nat × Msg))} (h0 : Started S n0)
    (hcfg : S.cfg = some .user) (hlim : S.limit ≤ 2 ^ 31) (hr : NodeRun S n0 l n) (hf : AllFair S n0 l) (hm : NoMaster l)
    (hlen : 3 * l.length < maxEvents) {l1 l2 : List (Event × List (Nat × Msg))} {fd : Nat} {e : Env} {w k : Bytes}
    {sent : List (Nat × Msg)} (he : l = l1 ++ (.request fd e [w, k], sent) :: l2) (hw : commandOf [w, k] = some (.ds .get))
    (hk : k ≠ []) (hk2 : k.length ≤ 255) :
    sentTo fd sent = [.reply (gotten (stored (placeOf fd l1) k l1))] ∨ (¬ Never .nsset l1 ∧ sentTo fd sent = [.reply errFrozen]) ∨
      (¬ Never .nsdel l1 ∧ sentTo fd sent = [.reply errGone]) := by
  subst he
  obtain ⟨n1, hr1, hr2⟩ := run_split hr
  cases hr2 with
  | cons hg hs _ =>
    obtain ⟨ho, hopen⟩ : Obs S l1 n1 ∧ Open l1 n1 := NodeRun.obs h0 hcfg hr1 (fun n1 l1' ev sent' l2' he hrun => hf n1 l1' ev sent' _ (by rw [he]; simp; rfl) hrun)
      (fun fd e argv sent hx => hm fd e argv sent (List.mem_append_left _ hx))
    have hi := hr1.inv h0.inv
    have hs' : request S n1 fd e [w, k] = .ok _ sent _ := hs
    obtain ⟨c, hc, -⟩ := request_cases hs'
    rcases asked hs' hc (ho.free fd c hc) with ⟨hno, -, -, hrep⟩ | ⟨hcmd, -⟩ | ⟨r, hh, i, n2, c1, m, hp, hcmd, hns, hd, hrun, hsl, hc1, hsent, rest, hsent'⟩
    · exact Or.inr (Or.inr ⟨fun hn => hopen.ns hn fd c hc hno, hrep⟩)
    · rw [hcmd] at hw; simp at hw
    · rw [hcmd] at hw
      injection hw with hw
      subst hw
      have hrep : ∃ rep, m = some (.reply rep) ∧ (r.conf.lock = .frozen → rep = errFrozen) := by
        have he := runHandler_eff hrun
        generalize hq : Handler.ds DsCmd.get = q at he
        cases he with
        | same h m hd hq' => exact absurd hq.symm (hd .get)
        | ds d br s rep hd hc =>
          injection hq with hq
          subst hq
          refine ⟨rep, rfl, fun hz => ?_⟩
          simp only [dsCommand, cmdGet, readChecks] at hd
          have hne : w ≠ [] := by
            rintro rfl
            simp [commandOf, lookup_nil, mem_handlers_star] at hcmd
          have hv : argsValidate [w, k] 2 = none := by
            simp [argsValidate, hne, hk]
          have hlt : ¬ k.length > 255 := by omega
          have hfz : r.conf.isFrozen = true := by simp [NsConf.isFrozen, hz]
          simp only [hv, if_neg hlt, ctxOf, hfz, if_true, Prod.mk.injEq] at hd
          exact hd.2.2.symm
        | _ => simp at hq
      obtain ⟨rep, hem, hfro⟩ := hrep
      obtain ⟨e1, -⟩ := sentTo_replyOf hem hsent hsent'
      rw [hem] at hsent
      by_cases hz : r.conf.lock = .frozen
      · right; left
        refine ⟨fun hn => ?_, by rw [hsent, hfro hz]; rfl⟩
        rw [hopen.lock hn r (nsDeref_some hd).1] at hz
        simp at hz
      · left
        obtain ⟨nc, l', tr, g1, g2, g3, g4, g5⟩ := ho.life r.uid r hd
        have hfair := hf n1 l1 _ sent l2 rfl hr1 r.uid
        have := C01_get_on_the_node g1 hlim (Or.inr hcfg) g2 g3 (by simp only [List.length_append] at hlen; omega) hg hfair hs' hp rfl rfl rfl hk hk2 hz
        rw [hsent, ← e1, this, g5 k, ho.place fd c r.uid r hc hns hd]
        rfl

/-- The `i`th value received by a client, and the request it answers. -/
theorem value_at {S : Settings} {n0 : Node} (h0 : Started S n0) {evs : List Ev} {σ : Server}
    (hrun : run S (Server.new n0) evs = some σ) (hsound : ∀ ev ∈ evs, ev.Sound) (hg : Guarded S n0 σ.log)
    {fd : Nat} {c : Link} (hc : σ.links fd = some c)
    {reqs : List (List Bytes)} (hok : ∀ r ∈ reqs, Resp.OkReq r) (ho : ∀ r ∈ reqs, Ordinary r)
    (hs : Resp.received c.got <+: Resp.encAll reqs) {i : Nat} {req : List Bytes} (hi : reqs[i]? = some req)
    {v : Value} (hv : (decode c.out.delivered).1[i]? = some v) :
    NodeRun S n0 σ.log σ.node ∧ ∃ l1 e sent m l2, σ.log = l1 ++ (.request fd e req, sent) :: l2 ∧ sentTo fd sent = [m] ∧
      (askedBy fd (since fd l1)).length = i ∧ (∀ x ∈ l2, isConnect fd x.1 = false) ∧ Means m v ∧
      (∀ r ∈ askedBy fd (since fd l1), r ∈ reqs) := by
  obtain ⟨hr, ⟨j, h1, h2, h3⟩, vs, h4, h5, h6⟩ := C61_served_partial h0 hrun hsound hg hc hok hs
  obtain ⟨cl, hcl⟩ := Known.ran (σ := Server.new n0) (fun _ _ h => by cases h) hrun fd c hc
  obtain ⟨hans, g1, g2⟩ := C62_partial h0 hr hcl (by
    rw [h1]; exact fun a ha => ho a (List.mem_of_mem_take ha))
  have hvs : vs[i]? = some v := by
    obtain ⟨t, ht⟩ := h5
    rw [← ht]
    rw [List.getElem?_append_left]
    · exact hv
    · exact (List.getElem?_eq_some_iff.1 hv).1
  have hlt : i < (toldTo fd (since fd σ.log)).length := by
    rw [h4.1]; exact (List.getElem?_eq_some_iff.1 hvs).1
  have hlt' : i < (answers fd (since fd σ.log)).length := by rw [← g2, List.length_map] at hlt; exact hlt
  obtain ⟨⟨argv, m⟩, ham⟩ : ∃ x, (answers fd (since fd σ.log))[i]? = some x := ⟨_, List.getElem?_eq_getElem hlt'⟩
  have hargv : argv = req := by
    have : (askedBy fd (since fd σ.log))[i]? = some argv := by rw [← g1, List.getElem?_map, ham]; rfl
    rw [h1, List.getElem?_take] at this
    split at this
    · rw [hi] at this; injection this with this; exact this.symm
    · simp at this
  subst hargv
  have hmv : Means m v := h4.2 i m v (by rw [← g2, List.getElem?_map, ham]; rfl) hvs
  obtain ⟨l1, e, sent, l2, hlog, hsent, hcount, hlast⟩ := answer_at hans ham
  refine ⟨hr, l1, e, sent, m, l2, hlog, hsent, hcount, hlast, hmv, fun r hr => ?_⟩
  have : since fd σ.log = since fd l1 ++ (.request fd e argv, sent) :: l2 := by
    rw [hlog, since_append]
    intro y hy
    rcases List.mem_cons.1 hy with rfl | hy
    · rfl
    · exact hlast y hy
  rw [this, askedBy_append] at h1
  exact List.mem_of_mem_take (by rw [← h1]; exact List.mem_append_left _ hr)

/-- C65.  A user-key process is started on empty directories and serves any clients, none of which calls MASTER, over a network
    which cuts what they send and what they are sent in any pieces.  A client has sent, in any pieces, a first part of some
    well-formed requests which are none of WAIT, MIRROR and MASTER; its `i`th request is a GET of a key.  The `i`th value it
    has received, if it has, is what this key contained in the namespace the client had selected at one moment `l1` of the
    execution: the payload of the last SET accepted, from any client, if no DEL was accepted since, and nil otherwise.  At
    this moment the client had asked its requests before the `i`th, and no other; every moment at which it had not asked the
    `i`th is earlier.  Or the value is one of two errors: the namespace is frozen, after an NSSET, or removed, after an NSDEL.

    Missing: as in `C65_get_partial`. -/
theorem C65_served_partial {S : Settings} {n0 : Node} (h0 : Started S n0) (hcfg : S.cfg = some .user) (hlim : S.limit ≤ 2 ^ 31)
    {evs : List Ev} {σ : Server} (hrun : run S (Server.new n0) evs = some σ) (hsound : ∀ ev ∈ evs, ev.Sound)
    (hg : Guarded S n0 σ.log) (hf : AllFair S n0 σ.log) (hm : NoMaster σ.log) (hlen : 3 * σ.log.length < maxEvents)
    {fd : Nat} {c : Link} (hc : σ.links fd = some c)
    {reqs : List (List Bytes)} (hok : ∀ r ∈ reqs, Resp.OkReq r) (ho : ∀ r ∈ reqs, Ordinary r)
    (hs : Resp.received c.got <+: Resp.encAll reqs)
    {i : Nat} {w k : Bytes} (hi : reqs[i]? = some [w, k]) (hw : commandOf [w, k] = some (.ds .get)) (hk : k ≠ [])
    (hk2 : k.length ≤ 255) {v : Value} (hv : (decode c.out.delivered).1[i]? = some v) :
    ∃ l1, l1 <+: σ.log ∧ (askedBy fd (since fd l1)).length = i ∧ (∀ r ∈ askedBy fd (since fd l1), r ∈ reqs) ∧
      (∀ l0, l0 <+: σ.log → (askedBy fd (since fd l0)).length ≤ i → l0 <+: l1) ∧
      (v = told (stored (placeOf fd l1) k l1) ∨ (¬ Never .nsset l1 ∧ valueOf errFrozen = some v) ∨
        (¬ Never .nsdel l1 ∧ valueOf errGone = some v)) := by
  obtain ⟨hr, l1, e, sent, m, l2, hlog, hsent, hcount, hlast, hmv, hreqs⟩ := value_at h0 hrun hsound hg hc hok ho hs hi hv
  refine ⟨l1, ⟨_, hlog.symm⟩, hcount, hreqs, fun l0 hl0 hn => ?_, ?_⟩
  · rw [hlog] at hl0
    exact before_request hlast hl0 (by rw [hcount]; exact hn)
  · have hget := C65_get_partial h0 hcfg hlim hr hf hm hlen hlog hw hk hk2
    rw [hsent] at hget
    rcases hget with h | ⟨hn, h⟩ | ⟨hn, h⟩
    · left
      simp only [List.cons.injEq, and_true] at h
      rw [h] at hmv
      cases hst : stored (placeOf fd l1) k l1 with
      | none => rw [hst] at hmv; exact (Option.some.inj hmv).symm
      | some p => rw [hst] at hmv; exact (Option.some.inj hmv).symm
    · simp only [List.cons.injEq, and_true] at h
      rw [h] at hmv
      exact Or.inr (Or.inl ⟨hn, hmv⟩)
    · simp only [List.cons.injEq, and_true] at h
      rw [h] at hmv
      exact Or.inr (Or.inr ⟨hn, hmv⟩)

theorem place_default {fd : Nat} {l : List (Event × List (Nat × Msg))}
    (h : ∀ argv ∈ askedBy fd (since fd l), commandOf argv ≠ some .select) : placeOf fd l = nameDefault := by
  generalize hn : l.length = n
  induction n generalizing l with
  | zero =>
    rw [List.length_eq_zero_iff] at hn
    subst hn; rfl
  | succ n ih =>
    rcases List.eq_nil_or_concat l with rfl | ⟨l, ⟨ev, sent⟩, rfl⟩
    · simp at hn
    rw [List.concat_eq_append] at hn h ⊢
    by_cases hcon : ev = .connect fd
    · subst hcon
      rw [placeOf_snoc]
      simp [Seen.next]
    have hic : isConnect fd ev = false := by
      cases ev <;> simp only [isConnect]
      simp only [beq_eq_false_iff_ne]
      rintro rfl; exact hcon rfl
    rw [since_append _ _ (by simpa using hic), askedBy_append] at h
    have ih := ih (fun a ha => h a (List.mem_append_left _ ha)) (by simpa using hn)
    by_cases hreq : ∃ e argv, ev = .request fd e argv
    · obtain ⟨e, argv, rfl⟩ := hreq
      rw [askedBy_one] at h
      rw [place_same (fun hx => absurd hx (h argv (by simp)))]; exact ih
    · rw [place_other hcon (fun e argv hh => hreq ⟨e, argv, hh⟩)]; exact ih

theorem ran_append {S : Settings} {σ σ1 σ2 : Server} {evs1 evs2 : List Ev} (h1 : run S σ evs1 = some σ1) (h2 : run S σ1 evs2 = some σ2) :
    run S σ (evs1 ++ evs2) = some σ2 := by
  induction evs1 generalizing σ with
  | nil => simp only [run, Option.some.injEq] at h1; subst h1; exact h2
  | cons ev evs1 ih =>
    simp only [run, List.cons_append] at h1 ⊢
    cases hs : step S σ ev with
    | none => rw [hs] at h1; simp at h1
    | some σ' => rw [hs] at h1; exact ih h1

/-- The request is a SET or DEL of `k`. -/
def Changes (k : Bytes) (argv : List Bytes) : Prop :=
  (commandOf argv = some (.ds .set) ∨ commandOf argv = some (.ds .del)) ∧ argv[1]? = some k

theorem stored_stays {name k p wa : Bytes} (hset : commandOf [wa, k, p] = some (.ds .set))
    {l l' : List (Event × List (Nat × Msg))} (h : stored name k l = some p) (hnew : Never .nsnew l')
    (hch : ∀ fd e argv sent, (Event.request fd e argv, sent) ∈ l' → Changes k argv → argv = [wa, k, p]) :
    stored name k (l ++ l') = some p := by
  induction l' generalizing l with
  | nil => rw [List.append_nil]; exact h
  | cons x l' ih =>
    have : l ++ x :: l' = (l ++ [x]) ++ l' := by simp
    rw [this]
    refine ih ?_ (fun fd e argv sent hx => hnew fd e argv sent (List.mem_cons_of_mem _ hx))
      (fun fd e argv sent hx => hch fd e argv sent (List.mem_cons_of_mem _ hx))
    unfold stored at h ⊢
    rw [seen_snoc]
    obtain ⟨ev, sent⟩ := x
    unfold Seen.next
    cases ev with
    | request fd e argv =>
      have h1 := hnew fd e argv sent (by simp)
      have h2 := hch fd e argv sent (by simp)
      simp only
      split
      · exact h
      · rename_i hc; exact absurd hc h1
      · rename_i k' p' _ _ _ hc
        split
        · rename_i hk
          have := h2 ⟨Or.inl hc, by rw [← hk.2]; rfl⟩
          simp only [List.cons.injEq] at this
          rw [this.2.2.1]
        · exact h
      · rename_i k' _ _ _ hc
        split
        · rename_i hk
          have := h2 ⟨Or.inr hc, by rw [← hk.2]; rfl⟩
          rw [this, hset] at hc
          simp at hc
        · exact h
      · exact h
    | _ => exact h

/-- C65: what one client stores, the others read.  Up to some moment `σ1`, client `a` has received the answer to a SET of
    `k`, and it is an acceptance.  After that moment client `b` asks GET of `k`.  Neither has called SELECT.  If nobody
    else has changed this key, and nobody called NSNEW, NSSET or NSDEL, then the answer that `b` receives is the payload, whatever
    else all clients do, and even if the process is restarted in between. -/
theorem C65_two_clients_partial {S : Settings} {n0 : Node} (h0 : Started S n0) (hcfg : S.cfg = some .user) (hlim : S.limit ≤ 2 ^ 31)
    {evs1 evs2 : List Ev} {σ1 σ2 : Server} (hrun1 : run S (Server.new n0) evs1 = some σ1) (hrun2 : run S σ1 evs2 = some σ2)
    (hsound : ∀ ev ∈ evs1 ++ evs2, ev.Sound)
    (hg : Guarded S n0 σ2.log) (hf : AllFair S n0 σ2.log) (hm : NoMaster σ2.log) (hlen : 3 * σ2.log.length < maxEvents)
    {a b : Nat} {ca cb : Link} (hca : σ1.links a = some ca) (hcb : σ2.links b = some cb)
    {reqsA reqsB : List (List Bytes)} (hokA : ∀ r ∈ reqsA, Resp.OkReq r ∧ Ordinary r ∧ commandOf r ≠ some .select)
    (hokB : ∀ r ∈ reqsB, Resp.OkReq r ∧ Ordinary r ∧ commandOf r ≠ some .select)
    (hsA : Resp.received ca.got <+: Resp.encAll reqsA) (hsB : Resp.received cb.got <+: Resp.encAll reqsB)
    {i j : Nat} {wa wb k p key : Bytes} (hj : reqsA[j]? = some [wa, k, p]) (hwa : commandOf [wa, k, p] = some (.ds .set))
    (hi : reqsB[i]? = some [wb, k]) (hwb : commandOf [wb, k] = some (.ds .get)) (hk : k ≠ []) (hk2 : k.length ≤ 255)
    (hack : (decode ca.out.delivered).1[j]? = some (.bulk key))
    (hlate : (askedBy b (since b σ1.log)).length ≤ i)
    (hch : ∀ fd e argv sent, (Event.request fd e argv, sent) ∈ σ2.log → Changes k argv → argv = [wa, k, p])
    (hnew : Never .nsnew σ2.log) (hset : Never .nsset σ2.log) (hdel : Never .nsdel σ2.log)
    {v : Value} (hv : (decode cb.out.delivered).1[i]? = some v) : v = .bulk p := by
  have hpre : σ1.log <+: σ2.log := run_log hrun2
  have hg1 : Guarded S n0 σ1.log := by
    obtain ⟨t, ht⟩ := hpre
    intro n1 l1 ev sent l2 he hr
    exact hg n1 l1 ev sent (l2 ++ t) (by rw [← ht, he]; simp) hr
  have hf1 : AllFair S n0 σ1.log := by
    obtain ⟨t, ht⟩ := hpre
    intro n1 l1 ev sent l2 he hr
    exact hf n1 l1 ev sent (l2 ++ t) (by rw [← ht, he]; simp) hr
  have hm1 : NoMaster σ1.log := fun fd e argv sent hx => hm fd e argv sent (hpre.subset hx)
  obtain ⟨hr, la, e, sent, m, lb, hlog, hsent, -, -, hmv, hreqs⟩ := value_at h0 hrun1 (fun ev he => hsound ev (List.mem_append_left _ he)) hg1
    hca (fun r hr => (hokA r hr).1) (fun r hr => (hokA r hr).2.1) hsA hj hack
  have hpa : placeOf a la = nameDefault := place_default (fun argv ha => (hokA argv (hreqs argv ha)).2.2)
  -- the acceptance
  have hrep : replyTo a sent = .bulk key := by
    rw [hlog] at hr
    obtain ⟨n1, hr1, hr2⟩ := run_split hr
    cases hr2 with
    | cons hg hs _ =>
      obtain ⟨ho, -⟩ : Obs S la n1 ∧ Open la n1 := NodeRun.obs h0 hcfg hr1
        (fun n1 l1' ev sent' l2' he hrun => hf1 n1 l1' ev sent' _ (by rw [hlog, he]; simp; rfl) hrun)
        (fun fd e argv sent hx => hm1 fd e argv sent (by rw [hlog]; exact List.mem_append_left _ hx))
      have hs' : request S n1 a e [wa, k, p] = .ok _ sent _ := hs
      obtain ⟨c, hc, -⟩ := request_cases hs'
      rcases asked hs' hc (ho.free a c hc) with ⟨hno, -, -, hrep⟩ | ⟨hcmd, -⟩ | ⟨r, hh, i, n2, c1, m', hp, hcmd, hns, hd, hrun, hsl, hc1, hsent', rest, hsent''⟩
      · rw [hsent] at hrep
        simp only [List.cons.injEq, and_true] at hrep
        rw [hrep] at hmv
        simp [Means, valueOf] at hmv
      · rw [hcmd] at hwa; simp at hwa
      · rw [hcmd] at hwa
        injection hwa with hwa
        subst hwa
        have he := runHandler_eff hrun
        generalize hq : Handler.ds DsCmd.set = q at he
        cases he with
        | same h m hd hq' => exact absurd hq.symm (hd .set)
        | ds d br s rep hd hc =>
          rw [hsent] at hsent'
          simp only [Option.toList_some, List.cons.injEq, and_true] at hsent'
          rw [hsent'] at hmv
          unfold replyTo
          rw [hsent, hsent']
          simp only
          simp only [Means] at hmv
          cases rep with
          | bulk x => simp only [valueOf, Option.some.injEq, Value.bulk.injEq] at hmv; rw [hmv]
          | arr l => simp [valueOf] at hmv
          | _ => simp [valueOf] at hmv
        | _ => simp at hq
  obtain ⟨l1, h1, h2, hreqs', h3, h4⟩ := C65_served_partial h0 hcfg hlim (ran_append hrun1 hrun2) hsound hg hf hm hlen hcb (fun r hr => (hokB r hr).1)
    (fun r hr => (hokB r hr).2.1) hsB hi hwb hk hk2 hv
  obtain ⟨t, rfl⟩ := h3 _ hpre hlate
  have hsub : ∀ x ∈ lb ++ t, x ∈ σ2.log := by
    intro x hx
    refine h1.subset ?_
    rw [hlog]
    rcases List.mem_append.1 hx with hx | hx
    · exact List.mem_append_left _ (List.mem_append_right _ (List.mem_cons_of_mem _ hx))
    · exact List.mem_append_right _ hx
  have hst : stored nameDefault k (σ1.log ++ t) = some p := by
    have : σ1.log ++ t = (la ++ [(.request a e [wa, k, p], sent)]) ++ (lb ++ t) := by rw [hlog]; simp
    rw [this]
    refine stored_stays hwa ?_ (fun fd e argv sent hx => hnew fd e argv sent (hsub _ hx)) (fun fd e argv sent hx => hch fd e argv sent (hsub _ hx))
    unfold stored
    rw [seen_snoc]
    have hpl : (seen nameDefault k la).place a = nameDefault := by rw [seen_place]; exact hpa
    simp [Seen.next, hwa, hrep, hpl]
  have hpb : placeOf b (σ1.log ++ t) = nameDefault := place_default (fun argv ha => (hokB argv (hreqs' argv ha)).2.2)
  rcases h4 with h | ⟨h, -⟩ | ⟨h, -⟩
  · rw [h, hpb, hst]; rfl
  · exact absurd (fun fd e argv sent hx => hset fd e argv sent (h1.subset hx)) h
  · exact absurd (fun fd e argv sent hx => hdel fd e argv sent (h1.subset hx)) h

/-! ### an example -/

/-- The conditions of `AllFair`, computed. -/
def allFairB (S : Settings) : Node → List (Event × List (Nat × Msg)) → Bool
  | _, [] => true
  | n, (ev, _) :: l =>
    (match ev with
      | .request _ e argv => e.io.iapp.isNone && e.io.iflag.isNone && e.io.iover.isNone &&
          argv.all (fun b => decide (b.length ≤ 2 ^ 23)) && (recs n).all (fun r => decide (r.conf.maxsize < 2 ^ 63))
      | _ => true) &&
      (match nodeStep S n ev with
      | .ok n1 _ _ => allFairB S n1 l
      | _ => true)

theorem allFairB_ok {S : Settings} {n : Node} {l : List (Event × List (Nat × Msg))} (h : allFairB S n l = true) :
    AllFair S n l := by
  induction l generalizing n with
  | nil => intro n1 l1 ev sent l2 he; simp at he
  | cons x l ih =>
    obtain ⟨ev, sent⟩ := x
    simp only [allFairB, Bool.and_eq_true] at h
    obtain ⟨h1, h3⟩ := h
    intro n1 l1 ev' sent' l2 he hr
    cases hr with
    | nil =>
      simp only [List.nil_append, List.cons.injEq, Prod.mk.injEq] at he
      rw [← he.1.1]
      intro u
      cases ev with
      | request fd e argv =>
        simp only [Bool.and_eq_true, Option.isNone_iff_eq_none, List.all_eq_true, decide_eq_true_eq] at h1
        obtain ⟨⟨⟨⟨a1, a2⟩, a3⟩, a4⟩, a5⟩ := h1
        exact ⟨⟨a1, a2, a3⟩, a4, fun r hr => a5 r (nsDeref_some hr).1⟩
      | _ => trivial
    | cons hg' hs h =>
      simp only [List.cons_append, List.cons.injEq, Prod.mk.injEq] at he
      obtain ⟨⟨rfl, rfl⟩, rfl⟩ := he
      rw [hs] at h3
      exact ih h3 _ _ _ _ _ rfl h

/-- Client 5 asks PING and SET, cut in the middle of the second request; it receives both answers. -/
def exStore : List Ev :=
  [.accept 5 exMem, exRecv 5 1 "*1\r\n$4\r\nPING\r\n*3\r\n$3\r\nSET\r\n$1\r\nk\r\n$1\r" [.took 3, .again],
    exRecv 5 3 "\nv\r\n" [.again], .writable 5 [.took 1, .took 99, .took 99]]

/-- The process is restarted; client 6 connects and asks PING and GET, and receives the answers byte after byte. -/
def exFetch : List Ev :=
  [.restart [], .accept 6 exMem, exRecv 6 4 "*1\r\n$4\r\nPING\r\n*2\r\n$3\r\nGET\r\n$1\r\nk\r\n" [.took 2, .again],
    .writable 6 [.took 1, .took 5, .took 3, .took 99]]

def exStored : Server := (run exS (Server.new (exNode exS)) exStore).getD (Server.new (exNode exS))
def exFetched : Server := (run exS exStored exFetch).getD exStored

def exReqsA : List (List Bytes) := [[str "PING"], [str "SET", str "k", str "v"]]
def exReqsB : List (List Bytes) := [[str "PING"], [str "GET", str "k"]]

/-- A request of the example, computed: none of the commands that `C65_two_clients_partial` excludes. -/
def quietB (argv : List Bytes) : Bool :=
  ordinaryB argv && decide (1 ≤ argv.length) && decide (argv.length ≤ 1024) && argv.all (fun a => decide (a.length ≤ 8388608)) &&
  (match commandOf argv with
    | some .select => false
    | some .nsnew => false
    | some .nsset => false
    | some .nsdel => false
    | some (.ds .set) => argv == [str "SET", str "k", str "v"]
    | some (.ds .del) => false
    | _ => true)

def exTwoB : Bool :=
  (run exS (Server.new (exNode exS)) exStore).isSome && (run exS exStored exFetch).isSome &&
  guardedB exS (exNode exS) exFetched.log && allFairB exS (exNode exS) exFetched.log && exFetched.log.length == 7 &&
  exFetched.log.all (fun x => match x.1 with | .request _ _ argv => quietB argv | _ => true) &&
  (exReqsA ++ exReqsB).all quietB &&
  (exStored.links 5).any (fun k => Resp.received k.got == Resp.encAll exReqsA && k.out.delivered == str "+PONG\r\n$1\r\nk\r\n") &&
  (exFetched.links 6).any (fun k => Resp.received k.got == Resp.encAll exReqsB && k.out.delivered == str "+PONG\r\n$1\r\nv\r\n") &&
  (askedBy 6 (since 6 exStored.log)).isEmpty &&
  (match commandOf [str "SET", str "k", str "v"] with | some (.ds .set) => true | _ => false) &&
  (match commandOf [str "GET", str "k"] with | some (.ds .get) => true | _ => false)

theorem exTwoB_true : exTwoB = true := by decide +kernel

theorem quietB_ok {argv : List Bytes} (h : quietB argv = true) :
    Resp.OkReq argv ∧ Ordinary argv ∧ commandOf argv ≠ some .select ∧ commandOf argv ≠ some .nsnew ∧
      commandOf argv ≠ some .nsset ∧ commandOf argv ≠ some .nsdel ∧
      (Changes (str "k") argv → argv = [str "SET", str "k", str "v"]) := by
  unfold quietB at h
  simp only [Bool.and_eq_true, decide_eq_true_eq, List.all_eq_true] at h
  obtain ⟨⟨⟨⟨h1, h2⟩, h3⟩, h4⟩, h5⟩ := h
  refine ⟨⟨h2, h3, h4⟩, ordinaryB_ok h1, ?_, ?_, ?_, ?_, ?_⟩
  · intro hc; rw [hc] at h5; cases h5
  · intro hc; rw [hc] at h5; cases h5
  · intro hc; rw [hc] at h5; cases h5
  · intro hc; rw [hc] at h5; cases h5
  · rintro ⟨hc | hc, -⟩
    · rw [hc] at h5; simpa using h5
    · rw [hc] at h5; cases h5

/-- A case of C65: the hypotheses of `C65_two_clients_partial` hold of this run, with a restart between the SET and the
    GET, for the second requests of both clients. -/
theorem C65_example : Started exS (exNode exS) ∧ run exS (Server.new (exNode exS)) exStore = some exStored ∧
    run exS exStored exFetch = some exFetched ∧ (∀ ev ∈ exStore ++ exFetch, ev.Sound) ∧
    Guarded exS (exNode exS) exFetched.log ∧ AllFair exS (exNode exS) exFetched.log ∧ NoMaster exFetched.log ∧
    3 * exFetched.log.length < maxEvents ∧
    (∃ ca cb, exStored.links 5 = some ca ∧ exFetched.links 6 = some cb ∧
      Resp.received ca.got <+: Resp.encAll exReqsA ∧ Resp.received cb.got <+: Resp.encAll exReqsB ∧
      ca.out.delivered = str "+PONG\r\n$1\r\nk\r\n" ∧ cb.out.delivered = str "+PONG\r\n$1\r\nv\r\n") ∧
    (∀ r ∈ exReqsA, Resp.OkReq r ∧ Ordinary r ∧ commandOf r ≠ some .select) ∧
    (∀ r ∈ exReqsB, Resp.OkReq r ∧ Ordinary r ∧ commandOf r ≠ some .select) ∧
    commandOf [str "SET", str "k", str "v"] = some (.ds .set) ∧ commandOf [str "GET", str "k"] = some (.ds .get) ∧
    (askedBy 6 (since 6 exStored.log)).length ≤ 1 ∧
    (∀ fd e argv sent, (Event.request fd e argv, sent) ∈ exFetched.log → Changes (str "k") argv → argv = [str "SET", str "k", str "v"]) ∧
    Never .nsnew exFetched.log ∧ Never .nsset exFetched.log ∧ Never .nsdel exFetched.log := by
  have hb := exTwoB_true
  unfold exTwoB at hb
  simp only [Bool.and_eq_true] at hb
  obtain ⟨⟨⟨⟨⟨⟨⟨⟨⟨⟨⟨h1, h2⟩, h3⟩, h4⟩, h5⟩, h6⟩, h7⟩, h8⟩, h9⟩, h10⟩, h11⟩, h12⟩ := hb
  have hq : ∀ fd e argv sent, (Event.request fd e argv, sent) ∈ exFetched.log → quietB argv = true := by
    intro fd e argv sent hx
    exact List.all_eq_true.1 h6 _ hx
  have hr : ∀ r ∈ exReqsA ++ exReqsB, quietB r = true := fun r hr => List.all_eq_true.1 h7 _ hr
  refine ⟨exNode_started, ?_, ?_, ?_, guardedB_ok (m := .user) rfl exNode_started.inv h3, allFairB_ok h4,
    fun fd e argv sent hx => (quietB_ok (hq fd e argv sent hx)).2.1.2.2, ?_, ?_,
    fun r h => ?_, fun r h => ?_, ?_, ?_, ?_,
    fun fd e argv sent hx => (quietB_ok (hq fd e argv sent hx)).2.2.2.2.2.2,
    fun fd e argv sent hx => (quietB_ok (hq fd e argv sent hx)).2.2.2.1,
    fun fd e argv sent hx => (quietB_ok (hq fd e argv sent hx)).2.2.2.2.1,
    fun fd e argv sent hx => (quietB_ok (hq fd e argv sent hx)).2.2.2.2.2.1⟩
  · unfold exStored
    cases h : run exS (Server.new (exNode exS)) exStore with
    | none => rw [h] at h1; cases h1
    | some σ => rfl
  · unfold exFetched
    cases h : run exS exStored exFetch with
    | none => rw [h] at h2; cases h2
    | some σ => rfl
  · have hs : ∀ as : List Out.Send, as.all (fun a => match a with | .again => true | .took _ => true | _ => false) = true → Out.Sound as := by
      intro as h a ha
      have := List.all_eq_true.1 h a ha
      cases a with
      | took k => exact Or.inr ⟨k, rfl⟩
      | again => exact Or.inl rfl
      | pipe => cases this
      | error => cases this
    intro ev he
    simp only [exStore, exFetch, List.cons_append, List.nil_append, List.mem_cons, List.not_mem_nil, or_false] at he
    rcases he with h | h | h | h | h | h | h | h <;> subst h
    · trivial
    · exact exRecv_sound (hs _ rfl)
    · exact exRecv_sound (hs _ rfl)
    · exact hs _ rfl
    · trivial
    · trivial
    · exact exRecv_sound (hs _ rfl)
    · exact hs _ rfl
  · rw [beq_iff_eq] at h5
    rw [h5]; unfold maxEvents; omega
  · cases ha : exStored.links 5 with
    | none => rw [ha] at h8; cases h8
    | some ca =>
    cases hb : exFetched.links 6 with
    | none => rw [hb] at h9; cases h9
    | some cb =>
    rw [ha, Option.any_some, Bool.and_eq_true, beq_iff_eq, beq_iff_eq] at h8
    rw [hb, Option.any_some, Bool.and_eq_true, beq_iff_eq, beq_iff_eq] at h9
    exact ⟨ca, cb, rfl, rfl, ⟨[], by rw [h8.1]; simp⟩, ⟨[], by rw [h9.1]; simp⟩, h8.2, h9.2⟩
  · have := quietB_ok (hr r (List.mem_append_left _ h)); exact ⟨this.1, this.2.1, this.2.2.1⟩
  · have := quietB_ok (hr r (List.mem_append_right _ h)); exact ⟨this.1, this.2.1, this.2.2.1⟩
  · decide +kernel
  · decide +kernel
  · rw [List.isEmpty_iff] at h10; rw [h10]; simp

end Zdb.Server
