/-
C31, C32, C52: the table of namespaces, deleted namespaces, names.
-/
import Verif.Lemmas.NodeClient
import Verif.Spec.NodeExample
namespace Zdb

/-! ### an execution used by the examples -/

/-- An administrator creates `foo`, two clients enter it, one stores a key. -/
def exEvents : List Event :=
  [.connect 5, .connect 6,
   .request 5 (exE 0) [str "AUTH", str "pw"],
   .request 5 (exE 1) [str "NSNEW", str "foo"],
   .request 6 (exE 2) [str "SELECT", str "foo"],
   .request 6 (exE 3) [str "SET", str "k", str "v"]]

theorem exNode_started : Started exS (exNode exS) := ⟨1, rfl⟩

/-- Any run computed from the first start is reachable. -/
theorem ran_reachable {S : Settings} {m : Mode} (hm : S.cfg = some m) (h0 : Started S (exNode S)) (evs : List Event) :
    Reachable S (ranNode S evs) := by
  unfold ranNode
  cases h : runNode S (exNode S) evs with
  | none => exact ⟨_, [], h0, .nil _⟩
  | some x => exact ⟨_, _, h0, runNode_run hm h0.inv h⟩

theorem ex_reachable (evs : List Event) : Reachable exS (ranNode exS evs) := ran_reachable rfl exNode_started evs

set_option maxRecDepth 100000 in
theorem exEvents_run : ranSent exS exEvents =
    [[], [], [(5, .reply .ok)], [(5, .reply .ok)], [(6, .reply .ok)], [(6, .reply (.bulk (str "k")))]] := rfl

/-! ### C31 -/

theorem hasName_recs {n : Node} {name : Bytes} : HasName n name ↔ name ∈ (recs n).map (·.conf.name) := by
  unfold HasName
  rw [List.mem_map]
  constructor
  · rintro ⟨r, h, h2⟩; exact ⟨r, mem_recs.2 h, h2⟩
  · rintro ⟨r, h, h2⟩; exact ⟨r, mem_recs.1 h, h2⟩

theorem nodup_inj {α β : Type} {f : α → β} {l : List α} (hn : (l.map f).Nodup) {a b : α} (ha : a ∈ l) (hb : b ∈ l)
    (h : f a = f b) : a = b := by
  induction l with
  | nil => simp at ha
  | cons x l ih =>
    rw [List.map_cons, List.nodup_cons] at hn
    rcases List.mem_cons.1 ha with ha1 | ha1
    · subst ha1
      rcases List.mem_cons.1 hb with hb1 | hb1
      · exact hb1.symm
      · exact absurd (h ▸ List.mem_map_of_mem hb1) hn.1
    · rcases List.mem_cons.1 hb with hb1 | hb1
      · subst hb1; exact absurd (h ▸ List.mem_map_of_mem ha1) hn.1
      · exact ih hn.2 ha1 hb1

/-- C31: the default namespace always exists. -/
theorem C31_default_exists {S : Settings} {n : Node} (h : Reachable S n) : HasName n nameDefault := by
  obtain ⟨d, l, hl, hd⟩ := h.inv.head
  exact ⟨d, by rw [hl]; exact List.mem_cons_self .., hd⟩

/-- C31: two namespaces of the table have different names. -/
theorem C31_names_distinct {S : Settings} {n : Node} (h : Reachable S n) {i j : Nat} {r r' : NsRec}
    (hi : n.slots[i]? = some (some r)) (hj : n.slots[j]? = some (some r')) (hn : r.conf.name = r'.conf.name) : i = j := by
  have key : ∀ (l : List (Option NsRec)), ((l.filterMap id).map (·.conf.name)).Nodup → ∀ i j : Nat, l[i]? = some (some r) →
      l[j]? = some (some r') → i = j := by
    intro l
    have mem : ∀ (l : List (Option NsRec)) (j : Nat) (x : NsRec), l[j]? = some (some x) → x.conf.name ∈ (l.filterMap id).map (·.conf.name) :=
      fun l j x h => List.mem_map.2 ⟨x, by rw [List.mem_filterMap]; exact ⟨some x, List.mem_of_getElem? h, rfl⟩, rfl⟩
    induction l with
    | nil => intro _ i j h; simp at h
    | cons x l ih =>
      intro hnd i j h1 h2
      cases x with
      | none =>
        cases i with
        | zero => simp at h1
        | succ i =>
          cases j with
          | zero => simp at h2
          | succ j => rw [ih hnd i j h1 h2]
      | some x =>
        simp only [List.filterMap_cons, id_eq, List.map_cons, List.nodup_cons] at hnd
        cases i with
        | zero =>
          cases j with
          | zero => rfl
          | succ j =>
            simp only [List.getElem?_cons_zero, Option.some.injEq] at h1
            subst h1
            exact absurd (hn ▸ mem l j r' h2) hnd.1
        | succ i =>
          cases j with
          | zero =>
            simp only [List.getElem?_cons_zero, Option.some.injEq] at h2
            subst h2
            exact absurd (hn ▸ mem l i r h1) hnd.1
          | succ j => rw [ih hnd.2 i j h1 h2]
  exact key n.slots h.inv.names i j hi hj

/-- C31: NSLIST announces as many names as it sends, and sends the name of each namespace once. -/
theorem C31_nslist {S : Settings} {n n' : Node} {fd : Nat} {e : Env} {argv : List Bytes} {sent : List (Nat × Msg)}
    {st : Status} (h : Reachable S n) (hs : request S n fd e argv = .ok n' sent st) {p : Picked}
    (hp : pick n fd e argv = some p) (hh : p.h = .nslist) :
    ∃ names : List Bytes, sent.head? = some (fd, .stream names.length (names.map .bulk)) ∧ names.Nodup ∧
      ∀ name, name ∈ names ↔ HasName n name := by
  obtain ⟨n1, c1, m, i, -, -, hr, -, hsent⟩ := (request_ran hs hp).ex
  rw [hh] at hr
  simp only [runHandler, cmdNslist] at hr
  obtain ⟨rfl, -, rfl, -⟩ := say_inj hr
  obtain ⟨d, l, hl, -⟩ := h.inv.head
  refine ⟨(recs n1).map (·.conf.name), ?_, h.inv.names, fun name => hasName_recs.symm⟩
  rw [hsent, head_sent, nsIter_recs hl, h.inv.count, List.length_map, List.map_map]
  rfl

set_option maxRecDepth 100000 in
/-- An NSLIST with two namespaces. -/
theorem C31_nslist_example : ranSent exS (exEvents ++ [.request 5 (exE 9) [str "nslist"]]) =
    ranSent exS exEvents ++ [[(5, .stream 2 [.bulk nameDefault, .bulk (str "foo")])]] := rfl

/-- C31: NSNEW of the name of an existing namespace is refused. -/
theorem C31_nsnew_existing_refused {S : Settings} {n n' : Node} {fd : Nat} {e : Env} {argv : List Bytes}
    {sent : List (Nat × Msg)} {st : Status} (h : Reachable S n) (hs : request S n fd e argv = .ok n' sent st) {p : Picked}
    (hp : pick n fd e argv = some p) (hh : p.h = .nsnew) {a : Bytes} (ha : p.argv[1]? = some a) (hx : HasName n (cstr a)) :
    Refused n n' fd sent := by
  rcases (request_ran hs hp).acts (pick_some hp).1 (by rw [hh]; rfl) with hr | ⟨-, n1, c1, i, rfl, he, -⟩
  · exact hr
  · exfalso
    rw [hh] at he
    cases he with
    | same _ _ _ hq => obtain ⟨s, hs⟩ := hq rfl; simp [errMsg, Reply.ok] at hs
    | nsnew name br s had hl hn hv hf h0 hk hs =>
      obtain ⟨-, rfl⟩ : a.length ≤ 128 ∧ cstr a = name := by
        unfold nsArg at hn; rw [ha] at hn; simp only at hn
        split at hn
        · exact absurd hn (by simp)
        · injection hn with hn; exact ⟨by omega, hn⟩
      exact h.inv.name_mem.1 hf (hasName_recs.1 hx)

set_option maxRecDepth 100000 in
/-- The same name twice. -/
theorem C31_nsnew_example : ranSent exS (exEvents ++ [.request 5 (exE 9) [str "NSNEW", str "foo"]]) =
    ranSent exS exEvents ++ [[(5, .reply (.err "This namespace is not available"))]] := rfl

/-- C31: NSDEL of the default namespace or of a namespace that does not exist is refused. -/
theorem C31_nsdel_default_or_missing_refused {S : Settings} {n n' : Node} {fd : Nat} {e : Env} {argv : List Bytes}
    {sent : List (Nat × Msg)} {st : Status} (h : Reachable S n) (hs : request S n fd e argv = .ok n' sent st) {p : Picked}
    (hp : pick n fd e argv = some p) (hh : p.h = .nsdel) {a : Bytes} (ha : p.argv[1]? = some a)
    (hx : cstr a = nameDefault ∨ ¬ HasName n (cstr a)) : Refused n n' fd sent := by
  rcases (request_ran hs hp).acts (pick_some hp).1 (by rw [hh]; rfl) with hr | ⟨-, n1, c1, i, rfl, he, -⟩
  · exact hr
  · exfalso
    rw [hh] at he
    cases he with
    | same _ _ _ hq => obtain ⟨s, hs⟩ := hq rfl; simp [errMsg, Reply.ok] at hs
    | nsdel name x had hl hn hd hx' hc =>
      obtain ⟨-, rfl⟩ : a.length ≤ 128 ∧ cstr a = name := by
        unfold nsArg at hn; rw [ha] at hn; simp only at hn
        split at hn
        · exact absurd hn (by simp)
        · injection hn with hn; exact ⟨by omega, hn⟩
      rcases hx with hx | hx
      · exact hd hx
      · obtain ⟨hm, hmn⟩ := nsGet_some hx'
        exact hx ⟨x, mem_recs.1 hm, hmn⟩

set_option maxRecDepth 100000 in
/-- Both refusals. -/
theorem C31_nsdel_example : ranSent exS (exEvents ++ [.request 5 (exE 9) [str "NSDEL", str "default"],
      .request 5 (exE 10) [str "NSDEL", str "bar"]]) =
    ranSent exS exEvents ++ [[(5, .reply (.err "Cannot remove default namespace"))],
      [(5, .reply (.err "This namespace doesn't exists"))]] := rfl

/-- C31: an acknowledged NSNEW adds its name and nothing else. -/
theorem C31_nsnew_adds {S : Settings} {n n' : Node} {fd : Nat} {e : Env} {argv : List Bytes}
    {sent : List (Nat × Msg)} {st : Status} (hs : request S n fd e argv = .ok n' sent st) {p : Picked}
    (hp : pick n fd e argv = some p) (hh : p.h = .nsnew) (hok : GotOk fd sent) :
    ∃ a, p.argv[1]? = some a ∧ ∀ name, HasName n' name ↔ HasName n name ∨ name = cstr a := by
  obtain ⟨n1, i, he, h1, -, -, -⟩ := acted hs hp (by rw [hh]; rfl) hok
  rw [hh] at he
  cases he with
  | same _ _ _ hq => obtain ⟨s, hs⟩ := hq rfl; simp [errMsg, Reply.ok] at hs
  | nsnew name br s had hl hn hv hf h0 hk hs =>
    unfold nsArg at hn
    split at hn
    · exact absurd hn (by simp)
    · rename_i a ha
      refine ⟨a, ha, fun nm => ?_⟩
      split at hn
      · exact absurd hn (by simp)
      · injection hn with hn
        rw [hn]
        have hperm := pushSlot_perm { uid := p.e.uid, conf := defaultConf name, store := s, desc := encDesc (defaultConf name) } n.slots
        rw [hasName_recs, hasName_recs]
        unfold recs
        rw [h1]
        simp only
        rw [(hperm.map _).mem_iff, List.map_cons, List.mem_cons, or_comm]
        rfl

/-- C31: an acknowledged NSDEL removes the namespace of that name and nothing else. -/
theorem C31_nsdel_removes {S : Settings} {n n' : Node} {fd : Nat} {e : Env} {argv : List Bytes}
    {sent : List (Nat × Msg)} {st : Status} (h : Reachable S n) (hs : request S n fd e argv = .ok n' sent st) {p : Picked}
    (hp : pick n fd e argv = some p) (hh : p.h = .nsdel) (hok : GotOk fd sent) :
    ∃ a x, p.argv[1]? = some a ∧ x ∈ recs n ∧ x.conf.name = cstr a ∧ recs n' = (recs n).filter (fun r => r.uid != x.uid) ∧
      ∀ name, HasName n' name ↔ HasName n name ∧ name ≠ cstr a := by
  obtain ⟨n1, i, he, h1, -, -, -⟩ := acted hs hp (by rw [hh]; rfl) hok
  rw [hh] at he
  cases he with
  | same _ _ _ hq => obtain ⟨s, hs⟩ := hq rfl; simp [errMsg, Reply.ok] at hs
  | nsdel name x had hl hn hd hx hc =>
    obtain ⟨hm, hmn⟩ := nsGet_some hx
    unfold nsArg at hn
    split at hn
    · exact absurd hn (by simp)
    · rename_i a ha
      split at hn
      · exact absurd hn (by simp)
      · injection hn with hn
        have hrecs : recs n' = (recs n).filter (fun r => r.uid != x.uid) := by
          unfold recs
          rw [h1]
          simp only
          rw [kickSlot_filterMap]
          exact eraseP_uid h.inv.uids x.uid
        refine ⟨a, x, ha, hm, by rw [hmn, hn], hrecs, fun nm => ?_⟩
        rw [hasName_recs, hasName_recs, hrecs, hn]
        simp only [List.mem_map, List.mem_filter, bne_iff_ne, ne_eq]
        constructor
        · rintro ⟨r, ⟨hr, hu⟩, rfl⟩
          refine ⟨⟨r, hr, rfl⟩, fun hnm => hu ?_⟩
          have : r = x := by
            have hnd := h.inv.names
            exact nodup_inj hnd hr hm (by rw [hnm, hmn])
          rw [this]
        · rintro ⟨⟨r, hr, rfl⟩, hne⟩
          refine ⟨r, ⟨hr, fun hu => hne ?_⟩, rfl⟩
          rw [uid_inj h.inv.uids hr hm hu, hmn]

/-! ### C32 -/

/-- C32: after an acknowledged NSDEL the namespace is gone, no client is attached to it, and those that were are
    attached to none. -/
theorem C32_nsdel_detaches {S : Settings} {n n' : Node} {fd : Nat} {e : Env} {argv : List Bytes}
    {sent : List (Nat × Msg)} {st : Status} (h : Reachable S n) (hg : Guard S n (.request fd e argv))
    (hs : request S n fd e argv = .ok n' sent st) {p : Picked}
    (hp : pick n fd e argv = some p) (hh : p.h = .nsdel) (hok : GotOk fd sent) :
    ∃ x ∈ recs n, nsDeref n' x.uid = none ∧ (∀ fd' c, getClient n' fd' = some c → c.ns ≠ some x.uid) ∧
      ∀ fd' c, getClient n fd' = some c → c.ns = some x.uid → ∃ c', getClient n' fd' = some c' ∧ c'.ns = none := by
  obtain ⟨a, x, ha, hx, hxn, hrecs, -⟩ := C31_nsdel_removes h hs hp hh hok
  have hi' := (h.step (ev := .request fd e argv) hg hs).inv
  have hgone : ¬ ∃ r ∈ recs n', r.uid = x.uid := by
    rintro ⟨r, hr, hu⟩
    rw [hrecs, List.mem_filter] at hr
    simp [hu] at hr
  refine ⟨x, hx, ?_, ?_, ?_⟩
  · cases hd : nsDeref n' x.uid with
    | none => rfl
    | some r => exact absurd (nsDeref_isSome.1 (by rw [hd]; rfl)) hgone
  · intro fd' c hc hu
    exact hgone (hi'.attached fd' c _ hc hu)
  · intro fd' c hc hu
    have hsome := client_kept (ev := .request fd e argv) hs trivial hc
    obtain ⟨c', hc'⟩ := hsome
    refine ⟨c', hc', ?_⟩
    rcases client_step (ev := .request fd e argv) hs hc' with ⟨h1, -⟩ | ⟨c0, hc0, hcase⟩
    · exact absurd h1 (by simp)
    · rw [hc] at hc0; injection hc0 with hc0; subst hc0
      have hns : c'.ns = c.ns ∨ c'.ns = none := by
        rcases hcase with hr | hb
        · obtain ⟨e1, argv1, p1, i1, m1, n2, rest, hev, hp1, -, -, -, hce, -⟩ := hr.ex
          injection hev with h1 h2 h3
          subst h1; subst h2; subst h3
          rw [hp] at hp1; injection hp1 with hp1; subst hp1
          rw [hh] at hce
          cases hce with
          | same => exact Or.inl rfl
        · exact hb.ns
      rcases hns with hns | hns
      · rw [hu] at hns
        exact absurd (hi'.attached fd' c' _ hc' hns) hgone
      · exact hns

/-- C32: a client attached to no namespace gets an error for any request and is disconnected; nothing changes. -/
theorem C32_detached_client_refused {S : Settings} {n n' : Node} {fd : Nat} {e : Env} {argv : List Bytes}
    {sent : List (Nat × Msg)} {st : Status} (hs : request S n fd e argv = .ok n' sent st) {c : Client}
    (hc : getClient n fd = some c) (hns : c.ns = none) :
    SameNode n n' ∧ getClient n' fd = some c ∧
      ((GotError fd sent ∧ st = .discard) ∨ (c.master = true ∧ n' = n ∧ sent = [])) := by
  obtain ⟨c0, hc0, -, hcase⟩ := request_cases hs
  rw [hc] at hc0; injection hc0 with hc0; subst hc0
  rcases hcase with ⟨hp, rfl, rfl, -⟩ | ⟨e', argv', n1, c1, m, hp, hd, hn', hsent⟩
  · refine ⟨SameNode.rfl _, hc, Or.inr ⟨?_, rfl, rfl⟩⟩
    cases hm : c.master with
    | true => rfl
    | false => unfold popOwner at hp; simp [hm] at hp
  · rcases dispatch_cases hd with ⟨-, rfl, rfl, rfl, rfl⟩ | ⟨u, key, rest, hu, -⟩
    · have hpost := post_rest e' fd (putClient n1 fd (some c1)) c1
      refine ⟨⟨by rw [hn']; exact hpost.2.1, by rw [hn']; exact hpost.1, by rw [hn']; exact hpost.2.2⟩, ?_, Or.inl ⟨⟨"Your active namespace is not available anymore (probably removed).", ?_⟩, rfl⟩⟩
      · rw [hn']; exact post_me ..
      · rw [hsent]; exact head_sent _ _ _
    · rw [hns] at hu; exact absurd hu (by simp)

/-- C32: a client that lost its namespace stays without, whatever namespaces are created later, in the same place or
    not, as long as it does not connect again: all its requests are refused. -/
theorem C32_detached_for_ever {S : Settings} {n n' : Node} {fd : Nat} {l : List (Event × List (Nat × Msg))}
    (hr : NodeRun S n l n') {c : Client} (hc : getClient n fd = some c) (hns : c.ns = none)
    (hst : ∀ x ∈ l, Stays fd x.1) :
    (∃ c', getClient n' fd = some c' ∧ c'.ns = none) ∧
      ∀ x ∈ l, ∀ e argv, x.1 = .request fd e argv → GotError fd x.2 ∨ x.2 = [] := by
  induction hr generalizing c with
  | nil n => exact ⟨⟨c, hc, hns⟩, by simp⟩
  | @cons n n1 n2 ev sent st l hg hs h ih =>
    have hnext : ∃ c1, getClient n1 fd = some c1 ∧ c1.ns = none := by
      have hstay := hst _ (List.mem_cons_self ..)
      have hsome := client_kept hs hstay hc
      obtain ⟨c1, hc1⟩ := hsome
      refine ⟨c1, hc1, ?_⟩
      rcases client_step hs hc1 with ⟨rfl, -⟩ | ⟨c0, hc0, hcase⟩
      · exact absurd rfl hstay
      · rw [hc] at hc0; injection hc0 with hc0; subst hc0
        rcases hcase with hr | hb
        · obtain ⟨e1, argv1, p1, i1, m1, n2, rest, hev, hp1, hpc, -⟩ := hr.ex
          obtain ⟨u, _, _, _, _, hu, -⟩ := (pick_some hp1).2.2
          rw [hpc, hns] at hu; exact absurd hu (by simp)
        · rcases hb.ns with hh | hh
          · rw [hh, hns]
          · exact hh
    obtain ⟨c1, hc1, hns1⟩ := hnext
    obtain ⟨h1, h2⟩ := ih hc1 hns1 (fun x hx => hst x (List.mem_cons_of_mem _ hx))
    refine ⟨h1, fun x hx e argv he => ?_⟩
    rcases List.mem_cons.1 hx with rfl | hx
    · simp only at he
      subst he
      simp only [nodeStep] at hs
      rcases (C32_detached_client_refused hs hc hns).2.2 with hh | hh
      · exact Or.inl hh.1
      · exact Or.inr hh.2.2
    · exact h2 x hx e argv he

/-- C32: nobody is attached to a namespace that has just been created, even if a deleted one had the same address. -/
theorem C32_new_namespace_has_no_client {S : Settings} {n n' : Node} {fd : Nat} {e : Env} {argv : List Bytes}
    {sent : List (Nat × Msg)} {st : Status} (h : Reachable S n) (hg : Guard S n (.request fd e argv))
    (hs : request S n fd e argv = .ok n' sent st) {p : Picked}
    (hp : pick n fd e argv = some p) (hh : p.h = .nsnew) : ∀ fd' c, getClient n' fd' = some c → c.ns ≠ some e.uid := by
  intro fd' c hc hu
  have hnot : ¬ ∃ r ∈ recs n, r.uid = e.uid := fun ⟨r, hr, hru⟩ => hg.1 r hr hru
  rcases client_step (ev := .request fd e argv) hs hc with ⟨h1, -⟩ | ⟨c0, hc0, hcase⟩
  · exact absurd h1 (by simp)
  · have hns : c.ns = c0.ns ∨ c.ns = none := by
      rcases hcase with hr | hb
      · obtain ⟨e1, argv1, p1, i1, m1, n2, rest, hev, hp1, hpc, -, -, hce, -⟩ := hr.ex
        injection hev with h1 h2 h3
        subst h1; subst h2; subst h3
        rw [hp] at hp1; injection hp1 with hp1; subst hp1
        rw [hh] at hce
        cases hce with
        | same => exact Or.inl rfl
      · exact hb.ns
    rcases hns with hns | hns
    · exact hnot (h.inv.attached fd' c0 _ hc0 (by rw [← hns]; exact hu))
    · rw [hu] at hns; exact absurd hns (by simp)

/-- Deleting `foo` while client 6 is in it, then creating it again at the same address. -/
def exDelete : List Event := exEvents ++
  [.request 5 (exE 4) [str "NSDEL", str "foo"],
   .request 5 (exE 1) [str "NSNEW", str "foo"],
   .request 6 (exE 5) [str "GET", str "k"],
   .request 6 (exE 6) [str "SELECT", str "foo"]]

set_option maxRecDepth 100000 in
theorem C32_example : ranSent exS exDelete = ranSent exS exEvents ++
    [[(5, .reply .ok)], [(5, .reply .ok)],
     [(6, .reply (.err "Your active namespace is not available anymore (probably removed)."))],
     [(6, .reply (.err "Your active namespace is not available anymore (probably removed)."))]] := rfl

/-! ### C52 -/

/-- C52: an acknowledged NSNEW has a name without slash, not `.`, not `..`, not `default`. -/
theorem C52_accepted_names {S : Settings} {n n' : Node} {fd : Nat} {e : Env} {argv : List Bytes}
    {sent : List (Nat × Msg)} {st : Status} (hs : request S n fd e argv = .ok n' sent st) {p : Picked}
    (hp : pick n fd e argv = some p) (hh : p.h = .nsnew) (hok : GotOk fd sent) :
    ∃ a, p.argv[1]? = some a ∧ (47 : UInt8) ∉ cstr a ∧ cstr a ≠ [46] ∧ cstr a ≠ [46, 46] ∧ cstr a ≠ nameDefault := by
  obtain ⟨n1, i, he, h1, -, -, -⟩ := acted hs hp (by rw [hh]; rfl) hok
  rw [hh] at he
  cases he with
  | same _ _ _ hq => obtain ⟨s, hs⟩ := hq rfl; simp [errMsg, Reply.ok] at hs
  | nsnew name br s had hl hn hv hf h0 hk hs =>
    unfold nsArg at hn
    split at hn
    · exact absurd hn (by simp)
    · rename_i a ha
      split at hn
      · exact absurd hn (by simp)
      · injection hn with hn
        refine ⟨a, ha, ?_⟩
        rw [hn]
        simp only [validName, Bool.not_eq_true', Bool.or_eq_false_iff, beq_eq_false_iff_ne, ne_eq] at hv
        obtain ⟨⟨⟨v1, v2⟩, v3⟩, v4⟩ := hv
        refine ⟨fun hm => ?_, v1, v2, v4⟩
        rw [List.contains_iff_mem.2 hm] at v3
        exact absurd v3 (by simp)

/-- C52: every namespace of a reachable node, read back from disk or not, has such a name, or is the default one. -/
theorem C52_names_stay_in_the_directory {S : Settings} {n : Node} (h : Reachable S n) {name : Bytes} (hn : HasName n name) :
    name = nameDefault ∨ ((47 : UInt8) ∉ name ∧ (0 : UInt8) ∉ name ∧ name ≠ [] ∧ name ≠ [46] ∧ name ≠ [46, 46]) := by
  obtain ⟨r, hr, rfl⟩ := hn
  rcases h.inv.shape r (mem_recs.2 hr) with hh | hh
  · exact Or.inl hh
  · right
    have hv := hh.valid
    simp only [validName, Bool.not_eq_true', Bool.or_eq_false_iff, beq_eq_false_iff_ne, ne_eq] at hv
    obtain ⟨⟨⟨v1, v2⟩, v3⟩, v4⟩ := hv
    refine ⟨fun hm => ?_, hh.nul, hh.ne, v1, v2⟩
    rw [List.contains_iff_mem.2 hm] at v3
    exact absurd v3 (by simp)

set_option maxRecDepth 100000 in
/-- Names refused: `a/b`, `.`, `..`, `default`; accepted: `...`. -/
theorem C52_example : ranSent exS (exEvents ++ [.request 5 (exE 9) [str "NSNEW", str "a/b"], .request 5 (exE 9) [str "NSNEW", str "."],
      .request 5 (exE 9) [str "NSNEW", str ".."], .request 5 (exE 9) [str "NSNEW", str "default"],
      .request 5 (exE 9) [str "NSNEW", str "..."]]) =
    ranSent exS exEvents ++ [[(5, .reply (.err "This name is not allowed"))], [(5, .reply (.err "This name is not allowed"))],
      [(5, .reply (.err "This name is not allowed"))], [(5, .reply (.err "This name is not allowed"))], [(5, .reply .ok)]] := rfl

end Zdb
