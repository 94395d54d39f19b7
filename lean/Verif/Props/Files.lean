/-
C17 and C23 for every execution of the process: all modes, all namespaces, whatever index writes fail.
-/
import Verif.Lemmas.NodeFiles
import Verif.Spec.NodeExample
namespace Zdb

/-! ### what a stretch of an execution is -/

/-- A stretch of an execution during which namespace `u` exists (its address is not reused). -/
inductive Lives (S : Settings) (u : Nat) : Node → List (Event × List (Nat × Msg)) → Node → Prop where
  | nil (n : Node) (hu : (storeOf n u).isSome = true) : Lives S u n [] n
  | cons {n n1 n2 : Node} {ev : Event} {sent : List (Nat × Msg)} {st : Status} {l : List (Event × List (Nat × Msg))}
      (hu : (storeOf n u).isSome = true) (hg : FreeGuard n ev) (hs : nodeStep S n ev = .ok n1 sent st) (h : Lives S u n1 l n2) :
      Lives S u n ((ev, sent) :: l) n2

theorem Lives.run {S : Settings} {u : Nat} {n n' : Node} {l : List (Event × List (Nat × Msg))} (h : Lives S u n l n') :
    FreeRun S n l n' := by
  induction h with
  | nil => exact .nil _
  | cons _ hg hs _ ih => exact .cons hg hs ih

theorem Lives.alive {S : Settings} {u : Nat} {n n' : Node} {l : List (Event × List (Nat × Msg))} (h : Lives S u n l n') :
    (storeOf n u).isSome = true := by
  cases h with
  | nil => assumption
  | cons => assumption

theorem Lives.ext {S : Settings} {u : Nat} {n n' : Node} {l : List (Event × List (Nat × Msg))} (h : Lives S u n l n') :
    ∀ {k : Nat}, FInv n k → k + l.length < 2 ^ 32 → ∀ {s s' : Store}, storeOf n u = some s → storeOf n' u = some s' → DataExt s s' := by
  induction h with
  | nil =>
    intro k _ _ s s' h1 h2
    rw [h1] at h2
    injection h2 with h2
    subst h2
    exact DataExt.refl _
  | @cons n n1 n2 ev sent st l hu hg hs h ih =>
    intro k hi hk s s' h1 h2
    simp only [List.length_cons] at hk
    have hm := nodeStep_carried hi (by omega) hg hs
    obtain ⟨s1, e1⟩ := Option.isSome_iff_exists.1 h.alive
    exact (hm.keeps hi.uids h1 e1).ext.trans (ih (hm.inv hi) (by omega) e1 h2)

/-! ### C17 -/

/-- C17: between two moments in the life of a namespace every data file only grows at its end, and only the file that
    was current can grow.  `n0` is a first start; requests of any kind from any client, jumps, reloads, FLUSH and
    restarts happen in between. -/
theorem C17_on_the_node {S : Settings} {n0 n n' : Node} {l l' : List (Event × List (Nat × Msg))} (h0 : Started S n0)
    (h : FreeRun S n0 l n) {u : Nat} (h' : Lives S u n l' n') (hlen : l.length + l'.length < 2 ^ 32)
    {s s' : Store} (hs : storeOf n u = some s) (hs' : storeOf n' u = some s') :
    ∀ (i : Nat) (f : Bytes), s.dfiles[i]? = some f →
      ∃ x, s'.dfiles[i]? = some (f ++ x) ∧ (i + 1 < s.dfiles.length → x = []) := by
  have hi := h.inv h0.files (by omega)
  have he := h'.ext hi (by omega) hs hs'
  intro i f hf
  obtain ⟨x, hx, hx0⟩ := he.2 i f hf
  refine ⟨x, hx, fun hlt => hx0 ?_⟩
  unfold storeOf at hs
  obtain ⟨r, hr, rfl⟩ := Option.map_eq_some_iff.1 hs
  have := (hi.files r (nsDeref_some hr).1).1.d
  omega

/-- C17: a namespace goes away only by an acknowledged NSDEL, or because a restart refuses its descriptor. -/
theorem C17_removed_only_by_nsdel {S : Settings} {n0 n n' : Node} {l : List (Event × List (Nat × Msg))} (h0 : Started S n0)
    (h : FreeRun S n0 l n) (hlen : l.length < 2 ^ 32) {ev : Event} {sent : List (Nat × Msg)} {st : Status}
    (hs : nodeStep S n ev = .ok n' sent st) {u : Nat} (hu : (storeOf n u).isSome = true) (hu' : storeOf n' u = none) :
    (∃ fd e argv p, ev = .request fd e argv ∧ pick n fd e argv = some p ∧ p.h = .nsdel ∧ sent.head? = some (fd, .reply .ok)) ∨
    ∃ order, ev = .restart order := by
  have hi := h.inv h0.files (by omega)
  obtain ⟨s, hs0⟩ := Option.isSome_iff_exists.1 hu
  obtain ⟨r0, hr0, -⟩ := Option.map_eq_some_iff.1 hs0
  have keep : ∀ (br : Branches) (v : Nat) (f : NsRec → NsRec), (∀ x ∈ recs n, x.uid = v → (f x).uid = x.uid) →
      ∀ m : Node, m.slots = (nsUpdate { n with br := br } v f).slots → storeOf m u ≠ none := by
    intro br v f hf m hm hnone
    have hmem := (nsDeref_some hr0).1
    have hu0 := (nsDeref_some hr0).2
    have hex : ∃ y ∈ recs (nsUpdate { n with br := br } v f), y.uid = u := by
      by_cases hv : r0.uid = v
      · exact ⟨f r0, mem_recs_update.2 (Or.inl ⟨r0, hmem, hv, rfl⟩), by rw [hf r0 hmem hv, hu0]⟩
      · exact ⟨r0, mem_recs_update.2 (Or.inr ⟨hmem, hv⟩), hu0⟩
    obtain ⟨y, hy, hyu⟩ := hex
    unfold storeOf at hnone
    rw [Option.map_eq_none_iff] at hnone
    unfold nsDeref at hnone
    rw [hm, List.find?_eq_none] at hnone
    exact absurd hyu (by simpa using hnone y hy)
  have same : ∀ m : Node, m.slots = n.slots → storeOf m u ≠ none := by
    intro m hm
    unfold storeOf
    rw [nsDeref_congr hm, hr0]
    simp
  cases ev with
  | connect fd =>
    simp only [nodeStep, Res.ok.injEq] at hs
    exact absurd hu' (same _ (by rw [← hs.1]; rfl))
  | disconnect fd =>
    simp only [nodeStep, Res.ok.injEq] at hs
    exact absurd hu' (same _ (by rw [← hs.1]; rfl))
  | tick us =>
    simp only [nodeStep, Res.ok.injEq] at hs
    exact absurd hu' (same _ (by rw [← hs.1]))
  | rotate v =>
    simp only [nodeStep, Res.ok.injEq] at hs
    exact absurd hu' (keep n.br v (fun r => { r with store := jump r.store }) (fun x _ _ => rfl) _ (by rw [← hs.1]))
  | restart order => exact Or.inr ⟨order, rfl⟩
  | request fd e argv =>
    left
    rcases request_pick hs with ⟨-, -, hsl, -⟩ | ⟨p, n1, c1, m, i, hp, hrun, rfl, hsent⟩
    · exact absurd hu' (same _ hsl)
    · have hrest := (post_rest p.e fd (putClient n1 fd (some c1)) c1).2.1
      have he := runHandler_eff hrun
      have upd : ∀ (br : Branches) (v : Nat) (s : Store), n1 = nsUpdate { n with br := br } v (fun r => { r with store := s }) → False :=
        fun br v s hn1 => keep br v (fun r => { r with store := s }) (fun x _ _ => rfl) _ (by rw [hrest, hn1]; rfl) hu'
      generalize hh : p.h = hd at he
      cases he with
      | same => exact absurd hu' (same _ (by rw [hrest]; rfl))
      | ds d br s rep => exact (upd br _ s rfl).elim
      | reload name x br s => exact (upd br _ s rfl).elim
      | flush br s => exact (upd br _ s rfl).elim
      | nsdel => exact ⟨fd, e, argv, p, rfl, hp, hh, by rw [hsent]; rfl⟩
      | nsnew name br s =>
        exfalso
        have hm := (pushSlot_perm { uid := p.e.uid, conf := defaultConf name, store := s, desc := encDesc (defaultConf name) } n.slots).mem_iff.2
          (List.mem_cons_of_mem _ (nsDeref_some hr0).1)
        unfold storeOf at hu'
        rw [Option.map_eq_none_iff] at hu'
        unfold nsDeref at hu'
        rw [hrest, List.find?_eq_none] at hu'
        exact absurd (nsDeref_some hr0).2 (by simpa using hu' r0 hm)
      | nsset a b prop value target x y ha hargs hv hn hx hpr =>
        refine (keep n.br x.uid (fun _ => commitNs y) (fun z hz hzu => ?_) _ (by rw [hrest]; rfl) hu').elim
        have hxr := (nsGet_some hx).1
        obtain ⟨g1, g2, -⟩ := hi.files x hxr
        have := (nsProperty_keeps g1 g2 hpr).1
        show y.uid = z.uid
        rw [this, hzu]

/-! ### C23 -/

/-- C23 (1): at all times every namespace has as many index as data files, numbered from 0 without gaps, and the last
    ones are current. -/
theorem C23_on_the_node {S : Settings} {n0 n : Node} {l : List (Event × List (Nat × Msg))} (h0 : Started S n0)
    (h : FreeRun S n0 l n) (hlen : l.length < 2 ^ 32) {u : Nat} {s : Store} (hs : storeOf n u = some s) :
    s.ifiles.length = s.dfiles.length ∧ s.indexid + 1 = s.ifiles.length ∧ s.dataid + 1 = s.dfiles.length := by
  have hi := h.inv h0.files (by omega)
  unfold storeOf at hs
  obtain ⟨r, hr, rfl⟩ := Option.map_eq_some_iff.1 hs
  have hst := (hi.files r (nsDeref_some hr).1).1
  have a := hst.d
  have b := hst.i
  have c := hst.same
  omega

/-- C23 (2): when a SET is acknowledged with key `k`, the record with `k` and the payload ends the data file that is
    current then, and as long as the namespace lives it is found there. -/
theorem C23_payload_on_the_node {S : Settings} {n0 n n1 n' : Node} {l l' : List (Event × List (Nat × Msg))} (h0 : Started S n0)
    (h : FreeRun S n0 l n) {fd : Nat} {e : Env} {argv : List Bytes} (hg : FreeGuard n (.request fd e argv))
    {sent : List (Nat × Msg)} {st : Status} (hst : nodeStep S n (.request fd e argv) = .ok n1 sent st)
    {p : Picked} (hp : pick n fd e argv = some p) (hset : p.h = .ds .set) {k payload : Bytes}
    (hpay : p.argv[2]? = some payload) (hack : sent.head? = some (fd, .reply (.bulk k)))
    (h' : Lives S p.r.uid n1 l' n') (hlen : l.length + l'.length + 1 < 2 ^ 32)
    {s1 s' : Store} (hs1 : storeOf n1 p.r.uid = some s1) (hs' : storeOf n' p.r.uid = some s') :
    ∃ f hdr x, s1.dfiles[s1.dataid]? = some (f ++ (encDHdr hdr ++ (k ++ payload))) ∧
      s'.dfiles[s1.dataid]? = some (f ++ (encDHdr hdr ++ (k ++ payload)) ++ x) := by
  have hi := h.inv h0.files (by omega)
  have hm := nodeStep_carried hi (by omega) hg hst
  have hext := h'.ext (hm.inv hi) (by omega) hs1 hs'
  suffices hsuf : ∃ f hdr, s1.dfiles[s1.dataid]? = some (f ++ (encDHdr hdr ++ (k ++ payload))) by
    obtain ⟨f, hdr, hf⟩ := hsuf
    obtain ⟨x, hx, -⟩ := hext.2 _ _ hf
    exact ⟨f, hdr, x, hf, hx⟩
  rcases request_pick hst with ⟨hn, -⟩ | ⟨p', n2, c2, m, i, hp', hrun, rfl, hsent⟩
  · rw [hp] at hn; exact absurd hn (by simp)
  · rw [hp] at hp'
    injection hp' with hp'
    subst hp'
    obtain ⟨-, -, u, key, rest, i', name, -, -, -, hd, -⟩ := pick_some hp
    have hmem := (nsDeref_some hd).1
    have he := runHandler_eff hrun
    rw [hset] at he
    cases he with
    | same _ _ hd' => exact absurd rfl (hd' .set)
    | ds d br s rep hds hc =>
      rw [hsent] at hack
      simp only [Option.toList_some, List.map_cons, List.map_nil, List.singleton_append, List.head?_cons, Option.some.injEq,
        Prod.mk.injEq, Msg.reply.injEq, true_and] at hack
      subst hack
      have hstore : s1 = s := by
        have hrest := (post_rest p.e fd (putClient (nsUpdate { n with br := br } p.r.uid (fun r => { r with store := s })) fd (some c2)) c2).2.1
        unfold storeOf at hs1
        rw [nsDeref_congr (n := nsUpdate { n with br := br } p.r.uid (fun r => { r with store := s })) (by rw [hrest]; rfl),
          nsDeref_update _ _ _ (fun r => { r with store := s }) (fun _ => rfl)] at hs1
        have : nsDeref { n with br := br } p.r.uid = some p.r := nsDeref_mem hi.uids hmem
        rw [this] at hs1
        simp only [Option.map_some, beq_self_eq_true, if_true, Option.some.injEq] at hs1
        exact hs1.symm
      subst hstore
      obtain ⟨g1, g2, g3⟩ := hi.files p.r hmem
      have key : ∀ a b, (cmdSet.body (ctxOf S p.e { p.c with executed := some i } p.r) n.br p.r.store p.argv a b) = (br, s1, .bulk k) →
          ∃ f hdr, s1.dfiles[s1.dataid]? = some (f ++ (encDHdr hdr ++ (k ++ b))) := by
        intro a b hb
        have := (cmdSet_body_ext (ctxOf S p.e { p.c with executed := some i } p.r) n.br g1 (by omega) p.argv a b).2 k
        rw [hb] at this
        obtain ⟨hh, f, hf⟩ := this rfl
        exact ⟨f, hh, hf⟩
      simp only [dsCommand] at hds
      unfold cmdSet at hds
      split at hds
      · rename_i a b cc heq
        rw [heq] at hpay
        simp only [List.getElem?_cons_succ, List.getElem?_cons_zero, Option.some.injEq] at hpay
        subst hpay
        exact key _ _ hds
      · rename_i a b cc dd heq
        rw [heq] at hpay
        simp only [List.getElem?_cons_succ, List.getElem?_cons_zero, Option.some.injEq] at hpay
        subst hpay
        split at hds
        · exact key _ _ hds
        · simp [errDenied] at hds
      · simp [errArgs] at hds

/-! ### the hypotheses are met: a process in mixed mode -/

theorem guardB_free {n : Node} {ev : Event} (h : guardB n ev = true) : FreeGuard n ev := by
  cases ev with
  | request fd e argv =>
    intro r hr
    have := List.all_eq_true.1 h r hr
    simpa using this
  | restart order =>
    have : order = (recs n).tail.map (·.uid) := by simpa [guardB] using h
    show order.Perm _
    rw [this]
  | _ => trivial

theorem runNode_free {S : Settings} {n n' : Node} {evs : List Event} {l : List (Event × List (Nat × Msg))}
    (h : runNode S n evs = some (n', l)) : FreeRun S n l n' := by
  induction evs generalizing n l with
  | nil =>
    simp only [runNode, Option.some.injEq, Prod.mk.injEq] at h
    obtain ⟨rfl, rfl⟩ := h
    exact .nil _
  | cons ev evs ih =>
    simp only [runNode] at h
    split at h
    · rename_i hg
      split at h
      · rename_i n1 sent st hs
        split at h
        · rename_i n2 l2 h2
          simp only [Option.some.injEq, Prod.mk.injEq] at h
          obtain ⟨rfl, rfl⟩ := h
          exact .cons (guardB_free hg) hs (ih h2)
        · exact absurd h (by simp)
      · exact absurd h (by simp)
    · exact absurd h (by simp)

/-- Running events while namespace `u` exists. -/
def livesB (S : Settings) (u : Nat) : Node → List Event → Option (Node × List (Event × List (Nat × Msg)))
  | n, [] => if (storeOf n u).isSome then some (n, []) else none
  | n, ev :: l =>
    if (storeOf n u).isSome && guardB n ev then
      match nodeStep S n ev with
      | .ok n1 sent _ => (livesB S u n1 l).map (fun x => (x.1, (ev, sent) :: x.2))
      | _ => none
    else none

theorem livesB_lives {S : Settings} {u : Nat} {n n' : Node} {evs : List Event} {l : List (Event × List (Nat × Msg))}
    (h : livesB S u n evs = some (n', l)) : Lives S u n l n' := by
  induction evs generalizing n l with
  | nil =>
    simp only [livesB] at h
    by_cases hu : (storeOf n u).isSome = true
    · rw [if_pos hu] at h
      simp only [Option.some.injEq, Prod.mk.injEq] at h
      obtain ⟨rfl, rfl⟩ := h
      exact .nil _ hu
    · rw [if_neg hu] at h; exact absurd h (by simp)
  | cons ev evs ih =>
    simp only [livesB] at h
    split at h
    · rename_i hg
      rw [Bool.and_eq_true] at hg
      split at h
      · rename_i n1 sent st hs
        obtain ⟨⟨n2, l2⟩, h2, h3⟩ := Option.map_eq_some_iff.1 h
        simp only [Prod.mk.injEq] at h3
        obtain ⟨rfl, rfl⟩ := h3
        exact .cons hg.1 (guardB_free hg.2) hs (ih h2)
      · exact absurd h (by simp)
    · exact absurd h (by simp)

/-- A process in mixed mode. -/
def exMixed : Settings := { exS with cfg := none }

/-- Namespace `foo` (address 1001) made sequential by NSSET; client 6 enters it. -/
def exMixStart : List Event :=
  [.connect 5, .connect 6,
   .request 5 (exE 0) [str "AUTH", str "pw"],
   .request 5 (exE 1) [str "NSNEW", str "foo"],
   .request 5 (exE 2) [str "NSSET", str "foo", str "mode", str "seq"],
   .request 6 (exE 3) [str "SELECT", str "foo"]]

/-- ... and stores a payload. -/
def exMixFirst : Event := .request 6 (exE 4) [str "SET", [], str "one"]

/-- A SET on a far id, a jump, a deletion, a reload, a restart, and a SET whose index write fails half-way. -/
def exMixRest : List Event :=
  [.request 6 (exE 6) [str "SET", [0, 0, 0, 128, 0, 0, 0, 0], str "y"],
   .rotate 1001,
   .request 6 (exE 7) [str "DEL", [0, 0, 0, 0, 0, 0, 0, 0]],
   .request 5 (exE 8) [str "RELOAD", str "foo"],
   .restart [1001],
   .connect 6,
   .request 6 (exE 9) [str "SELECT", str "foo"],
   .request 6 { exE 10 with io := { Io.good with iapp := some 3 } } [str "SET", [], str "z"]]

/-- The state after the first SET. -/
def exMixNode : Node := ranNode exMixed (exMixStart ++ [exMixFirst])

theorem exMix_started : Started exMixed (exNode exMixed) := ⟨1, rfl⟩

set_option maxRecDepth 100000 in
/-- The first stretch: `C17_on_the_node`, `C23_on_the_node` apply to it. -/
theorem exMix_first : ∃ l, FreeRun exMixed (exNode exMixed) l (ranNode exMixed exMixStart) ∧ l.length = 6 := by
  have h : (runNode exMixed (exNode exMixed) exMixStart).isSome = true := by decide +kernel
  obtain ⟨⟨n, l⟩, hx⟩ := Option.isSome_iff_exists.1 h
  have e : ranNode exMixed exMixStart = n := by unfold ranNode; rw [hx]; rfl
  have hl : ((runNode exMixed (exNode exMixed) exMixStart).map (fun x => x.2.length)) = some 6 := by decide +kernel
  rw [hx] at hl
  rw [e]
  exact ⟨l, runNode_free hx, by simpa using hl⟩

set_option maxRecDepth 100000 in
/-- The acknowledged SET of `C23_payload_on_the_node`: a sequential namespace, id 0. -/
example : (pick (ranNode exMixed exMixStart) 6 (exE 4) [str "SET", [], str "one"]).map
    (fun p => (p.r.uid, p.argv[2]?, p.r.store.mode == .seq)) = some (1001, some (str "one"), true) := by decide +kernel

set_option maxRecDepth 100000 in
example : (match nodeStep exMixed (ranNode exMixed exMixStart) exMixFirst with
    | .ok n1 [(6, .reply (.bulk k))] _ => k == [0, 0, 0, 0, 0, 0, 0, 0] &&
        ((storeOf n1 1001).map (fun s => s.dfiles.map (·.length)) == some [57])
    | _ => false) = true := by decide +kernel

set_option maxRecDepth 100000 in
/-- The second stretch, during which the namespace lives; both data files have grown, the index has a torn item. -/
theorem exMix_rest : ∃ l n', Lives exMixed 1001 exMixNode l n' ∧
    (storeOf n' 1001).map (fun s => (s.ifiles.map (·.length), s.dfiles.map (·.length))) = some ([113, 32], [84, 81]) := by
  have h : (livesB exMixed 1001 exMixNode exMixRest).isSome = true := by decide +kernel
  obtain ⟨⟨n', l⟩, hx⟩ := Option.isSome_iff_exists.1 h
  have hl : ((livesB exMixed 1001 exMixNode exMixRest).map
    (fun x => (storeOf x.1 1001).map (fun s => (s.ifiles.map (·.length), s.dfiles.map (·.length))))) =
      some (some ([113, 32], [84, 81])) := by decide +kernel
  rw [hx] at hl
  exact ⟨l, n', livesB_lives hx, by simpa using hl⟩

set_option maxRecDepth 100000 in
/-- NSDEL removes it (`C17_removed_only_by_nsdel`). -/
example : (match nodeStep exMixed exMixNode (.request 5 (exE 5) [str "NSDEL", str "foo"]) with
    | .ok n1 [(5, .reply .ok)] _ => (storeOf exMixNode 1001).isSome && (storeOf n1 1001).isNone
    | _ => false) = true := by decide +kernel

end Zdb
