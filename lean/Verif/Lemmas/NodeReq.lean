/-
What a request does, in the words of Spec/NodeFacts.
-/
import Verif.Spec.NodeFacts
namespace Zdb

theorem Reachable.inv {S : Settings} {n : Node} (h : Reachable S n) : NodeInv S n := by
  obtain ⟨n0, l, h0, hl⟩ := h
  exact hl.inv h0.inv

theorem Reachable.run {S : Settings} {n n' : Node} {l : List (Event × List (Nat × Msg))} (h : Reachable S n)
    (hl : NodeRun S n l n') : Reachable S n' := by
  obtain ⟨n0, l0, h0, hl0⟩ := h
  exact ⟨n0, _, h0, hl0.append hl⟩

theorem Reachable.step {S : Settings} {n n' : Node} {ev : Event} {sent : List (Nat × Msg)} {st : Status} (h : Reachable S n)
    (hg : Guard S n ev) (hs : nodeStep S n ev = .ok n' sent st) : Reachable S n' :=
  h.run (.cons hg hs (.nil _))

theorem SameNode.rfl (n : Node) : SameNode n n := ⟨Eq.refl _, Eq.refl _, Eq.refl _⟩

/-- A handler ran: its effects, what is sent, and the client afterwards. -/
structure Ran (S : Settings) (n n' : Node) (fd : Nat) (sent : List (Nat × Msg)) (st : Status) (p : Picked) : Prop where
  ex : ∃ (n1 : Node) (c1 : Client) (m : Option Msg) (i : Nat), lookupCmd (p.argv.headD []) = some i ∧
    handlers[i]?.map (·.2) = some p.h ∧
    runHandler S p.e n { p.c with executed := some i } p.r p.h p.argv = .done n1 c1 m st ∧
    n' = (post p.e fd (putClient n1 fd (some c1)) c1).1 ∧
    sent = m.toList.map (fun m => (fd, m)) ++ (post p.e fd (putClient n1 fd (some c1)) c1).2

theorem request_ran {S : Settings} {n n' : Node} {fd : Nat} {e : Env} {argv : List Bytes} {sent : List (Nat × Msg)}
    {st : Status} (h : request S n fd e argv = .ok n' sent st) {p : Picked} (hp : pick n fd e argv = some p) :
    Ran S n n' fd sent st p := by
  obtain ⟨c, hc, -, hcase⟩ := request_cases h
  have hp0 := pick_some hp
  rcases hcase with ⟨hq, -, -, -⟩ | ⟨e', argv', n1, c1, m, hq, hd, hn, hs⟩
  · rw [hp0.1] at hc; injection hc with hc; subst hc
    rw [hp0.2.1] at hq; exact absurd hq (by simp)
  · rcases dispatch_cases hd with ⟨hu, -, -, -, -⟩ | ⟨u, key, rest, hu, ha, hcase⟩
    · rw [hp0.1] at hc; injection hc with hc; subst hc
      obtain ⟨u, _, _, _, _, hu', _⟩ := hp0.2.2
      rw [hu] at hu'; exact absurd hu' (by simp)
    · rcases hcase with ⟨hl, -, -, -, -⟩ | ⟨i, r, name, hh, hl, hr, hi, hrun⟩
      · rw [hp0.1] at hc; injection hc with hc; subst hc
        rw [hp0.2.1] at hq; simp only [Option.some.injEq, Prod.mk.injEq] at hq
        obtain ⟨_, key', rest', i, _, -, ha', hl', -⟩ := hp0.2.2
        rw [← hq.2, ha'] at ha
        injection ha with ha1 _
        rw [ha1, hl] at hl'; exact absurd hl' (by simp)
      · have := pick_of hc hq hu ha hl hr hi
        rw [hp] at this
        injection this with this
        subst this
        exact ⟨n1, c1, m, i, by simp only [ha]; exact hl, by rw [hi]; rfl, hrun, hn, hs⟩

/-- The requesting client after its request. -/
theorem post_me (e : Env) (fd : Nat) (n : Node) (c : Client) : getClient (post e fd (putClient n fd (some c)) c).1 fd = some c := by
  rw [post_get]
  simp only [getClient_put, if_true]
  split <;> simp

theorem Ran.data {S : Settings} {n n' : Node} {fd : Nat} {sent : List (Nat × Msg)} {st : Status} {p : Picked}
    (h : Ran S n n' fd sent st p) (hd : ∀ d, p.h ≠ .ds d) (ha : p.h.acts = false) : SameNode n n' := by
  obtain ⟨n1, c1, m, i, -, -, hr, hn, -⟩ := h.ex
  have he := runHandler_eff hr
  have hpost := post_rest p.e fd (putClient n1 fd (some c1)) c1
  have h1 : n1 = n := by
    generalize p.h = ph at he hd ha
    cases he <;> first | rfl | (exact absurd rfl (hd _)) | (simp [Handler.acts] at ha)
  subst h1
  rw [hn]
  exact ⟨hpost.2.1, hpost.1, hpost.2.2⟩

theorem head_sent (fd : Nat) (m : Msg) (l : List (Nat × Msg)) :
    ((some m).toList.map (fun m => (fd, m)) ++ l).head? = some (fd, m) := rfl

/-- Handlers that change namespaces: refused, or acknowledged with the effects of `NodeEff`. -/
theorem Ran.acts {S : Settings} {n n' : Node} {fd : Nat} {sent : List (Nat × Msg)} {st : Status} {p : Picked}
    (hc : getClient n fd = some p.c) (h : Ran S n n' fd sent st p) (ha : p.h.acts = true) :
    Refused n n' fd sent ∨ (GotOk fd sent ∧ ∃ n1 c1 i, c1 = { p.c with executed := some i } ∧
      NodeEff S p.e n c1 p.r p.argv p.h n1 (some (.reply .ok)) ∧
      n' = (post p.e fd (putClient n1 fd (some c1)) c1).1 ∧
      sent = (some (Msg.reply .ok)).toList.map (fun m => (fd, m)) ++ (post p.e fd (putClient n1 fd (some c1)) c1).2) := by
  obtain ⟨n1, c1, m, i, -, -, hr, hn, hs⟩ := h.ex
  have he := runHandler_eff hr
  have hcl := runHandler_client hr
  have hpost := post_rest p.e fd (putClient n1 fd (some c1)) c1
  have hc1 : c1 = { p.c with executed := some i } := by
    clear he hr
    generalize p.h = ph at hcl ha
    cases hcl <;> first | rfl | (simp [Handler.acts] at ha)
  generalize hph : p.h = ph at he ha
  have hok : ∀ (m' : Option Msg), m = m' → m' = some (.reply .ok) → _ := fun m' h1 h2 => by
    subst h1; subst h2
    exact (⟨by rw [hs]; exact head_sent _ _ _, n1, c1, i, hc1, he, hn, hs⟩ :
      GotOk fd sent ∧ ∃ n1 c1 i, c1 = { p.c with executed := some i } ∧
      NodeEff S p.e n { p.c with executed := some i } p.r p.argv ph n1 (some (.reply .ok)) ∧
      n' = (post p.e fd (putClient n1 fd (some c1)) c1).1 ∧
      sent = (some (Msg.reply .ok)).toList.map (fun m => (fd, m)) ++ (post p.e fd (putClient n1 fd (some c1)) c1).2)
  have hfin : m = some (.reply .ok) → _ := fun h => hok m rfl h
  subst hc1
  cases he with
  | same _ _ hd hq =>
    obtain ⟨s, rfl⟩ := hq ha
    left
    refine ⟨⟨s, by rw [hs]; exact head_sent _ _ _⟩, ⟨by rw [hn]; exact hpost.2.1, by rw [hn]; exact hpost.1, by rw [hn]; exact hpost.2.2⟩, ?_⟩
    exact ⟨p.c, { p.c with executed := some i }, hc, by rw [hn]; exact post_me .., rfl⟩
  | ds => simp [Handler.acts] at ha
  | nsnew => right; obtain ⟨a, n1, c1, i, b, c, d, f⟩ := hfin rfl; subst b; exact ⟨a, n1, _, i, rfl, c, d, f⟩
  | nsdel => right; obtain ⟨a, n1, c1, i, b, c, d, f⟩ := hfin rfl; subst b; exact ⟨a, n1, _, i, rfl, c, d, f⟩
  | nsset => right; obtain ⟨a, n1, c1, i, b, c, d, f⟩ := hfin rfl; subst b; exact ⟨a, n1, _, i, rfl, c, d, f⟩
  | reload => right; obtain ⟨a, n1, c1, i, b, c, d, f⟩ := hfin rfl; subst b; exact ⟨a, n1, _, i, rfl, c, d, f⟩
  | flush => right; obtain ⟨a, n1, c1, i, b, c, d, f⟩ := hfin rfl; subst b; exact ⟨a, n1, _, i, rfl, c, d, f⟩

theorem not_err_ok {fd : Nat} {sent : List (Nat × Msg)} (h : GotOk fd sent) : ¬ GotError fd sent := by
  rintro ⟨s, hs⟩
  rw [h] at hs
  simp [Reply.ok] at hs

/-- The effects of an acknowledged command that changes namespaces. -/
theorem acted {S : Settings} {n n' : Node} {fd : Nat} {e : Env} {argv : List Bytes} {sent : List (Nat × Msg)}
    {st : Status} (h : request S n fd e argv = .ok n' sent st) {p : Picked} (hp : pick n fd e argv = some p)
    (ha : p.h.acts = true) (hok : GotOk fd sent) :
    ∃ n1 i, NodeEff S p.e n { p.c with executed := some i } p.r p.argv p.h n1 (some (.reply .ok)) ∧
      n'.slots = n1.slots ∧ n'.br = n1.br ∧ n'.effective = n1.effective ∧
      n' = (post p.e fd (putClient n1 fd (some { p.c with executed := some i })) { p.c with executed := some i }).1 := by
  rcases (request_ran h hp).acts (pick_some hp).1 ha with hr | ⟨-, n1, c1, i, rfl, he, hn, -⟩
  · exact absurd hr.1 (not_err_ok hok)
  · have hpost := post_rest p.e fd (putClient n1 fd (some { p.c with executed := some i })) { p.c with executed := some i }
    exact ⟨n1, i, he, by rw [hn]; exact hpost.2.1, by rw [hn]; exact hpost.1, by rw [hn]; exact hpost.2.2, hn⟩

theorem nsUpdate_id {n : Node} (hu : ((recs n).map (·.uid)).Nodup) {r : NsRec} (hr : r ∈ recs n) :
    nsUpdate n r.uid (fun x => { x with store := r.store }) = n := by
  have : n.slots.map (Option.map (fun x => if x.uid == r.uid then { x with store := r.store } else x)) = n.slots := by
    conv => rhs; rw [← List.map_id n.slots]
    apply List.map_congr_left
    intro x hx
    cases x with
    | none => rfl
    | some x =>
      simp only [Option.map_some, id_eq, Option.some.injEq]
      split
      · rename_i h
        have : x = r := uid_inj hu (mem_recs.2 hx) hr (by simpa using h)
        rw [this]
      · rfl
  unfold nsUpdate
  rw [this]

/-- A dataset command that leaves the store as it is. -/
theorem Ran.ds_same {S : Settings} {n n' : Node} {fd : Nat} {sent : List (Nat × Msg)} {st : Status} {p : Picked}
    (h : Ran S n n' fd sent st p) (hi : NodeInv S n) {fd0 : Nat} {e0 : Env} {argv0 : List Bytes}
    (hp : pick n fd0 e0 argv0 = some p) {d : DsCmd} {rep : Reply} (hd : p.h = .ds d)
    (hc : dsCommand (ctxOf S p.e p.c p.r) n.br p.r.store d p.argv = (n.br, p.r.store, rep)) :
    SameNode n n' ∧ sent.head? = some (fd, .reply rep) ∧ (getClient n fd = some p.c → SameClient n n' fd) := by
  obtain ⟨n1, c1, m, i, -, -, hr, hn, hs⟩ := h.ex
  rw [hd] at hr
  have he := runHandler_eff hr
  have hce := runHandler_client hr
  cases he with
  | same _ _ hx _ => exact absurd rfl (hx d)
  | ds _ br s rep' hd' hc' =>
    have hctx : dsCommand (ctxOf S p.e p.c p.r) n.br p.r.store d p.argv = (br, s, rep') := hd'
    rw [hc] at hctx
    simp only [Prod.mk.injEq] at hctx
    obtain ⟨rfl, rfl, rfl⟩ := hctx
    have hrm := (nsDeref_some (pick_some hp).2.2.choose_spec.choose_spec.choose_spec.choose_spec.choose_spec.2.2.2.1).1
    have hpost := post_rest p.e fd (putClient (nsUpdate { n with br := n.br } p.r.uid (fun r => { r with store := p.r.store })) fd (some c1)) c1
    have hid : nsUpdate { n with br := n.br } p.r.uid (fun r => { r with store := p.r.store }) = n :=
      nsUpdate_id hi.uids hrm
    rw [hid] at hn hs hpost
    refine ⟨⟨by rw [hn]; exact hpost.2.1, by rw [hn]; exact hpost.1, by rw [hn]; exact hpost.2.2⟩, ?_, fun hg => ?_⟩
    · rw [hs]; exact head_sent _ _ _
    · cases hce with
      | same => exact ⟨p.c, { p.c with executed := some i }, hg, by rw [hn]; exact post_me .., rfl⟩

/-- The same for a request, when the reply is an error. -/
theorem ds_refused {S : Settings} {n n' : Node} {fd : Nat} {e : Env} {argv : List Bytes} {sent : List (Nat × Msg)}
    {st : Status} (h : Reachable S n) (hs : request S n fd e argv = .ok n' sent st) {p : Picked}
    (hp : pick n fd e argv = some p) {d : DsCmd} {msg : String} (hd : p.h = .ds d)
    (hc : dsCommand (ctxOf S p.e p.c p.r) n.br p.r.store d p.argv = (n.br, p.r.store, .err msg)) :
    Refused n n' fd sent := by
  obtain ⟨h1, h2, h3⟩ := (request_ran hs hp).ds_same h.inv hp hd hc
  exact ⟨⟨msg, h2⟩, h1, h3 (pick_some hp).1⟩

end Zdb
