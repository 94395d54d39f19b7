/-
Properties of sequential namespaces: C03, C04, C05, C43 and the sequential parts of C07, C08, C17,
C23, C26, C46, C49.
-/
import Verif.Lemmas.SeqRun
import Verif.Lemmas.SeqSpec
import Verif.Props.UserMap
import Verif.Spec.SeqExample
namespace Zdb

/-- Restarts between commands: run some commands, reload, run others. -/
def runReload (l l' : List (Ctx × DsCmd × List Bytes)) : Option (List Reply) :=
  let x := runCmds (fun _ => []) (freshStore .seq) l
  match reloadNs (some .seq) x.1 7 x.2.1 with
  | .ok br s => some (runCmds br s l').2.2
  | _ => none

/-! ### the executions exist: a concrete one used in the examples below -/

theorem nearKeyB_iff {m : Slots} {k : Bytes} (h : nearKeyB m k = true) : NearKey m k := by
  unfold nearKeyB at h
  intro hk
  simp only [hk, bne_self_eq_false, Bool.false_or, Bool.or_eq_true, decide_eq_true_eq] at h
  exact h

theorem nearEvent_of {m : Slots} {c : Ctx} {d : DsCmd} {argv : List Bytes} (h : argv.all (nearKeyB m) = true) :
    NearEvent m (.cmd c d argv) := by
  rw [List.all_eq_true] at h
  have h1 : ∀ k ∈ argv, NearKey m k := fun k hk => nearKeyB_iff (h k hk)
  unfold NearEvent
  split
  · rename_i he
    injection he with _ _ he
    subst he
    exact fun k hk => h1 k (List.mem_of_mem_tail hk)
  · rename_i he
    injection he with _ _ he
    subst he
    exact fun k hk => h1 k (List.mem_of_getElem? hk)
  · trivial

theorem cleanCmds_run {u : Nat} {br : Branches} {s : Store} {l : List (Ctx × DsCmd × List Bytes)}
    (hu : ∀ x ∈ l, x.1.u = u) (h : cleanCmds br s l = true) :
    CleanRun (some .seq) u br s (traceOf br s l) (runCmds br s l).1 (runCmds br s l).2.1 := by
  induction l generalizing br s with
  | nil => exact .nil _ _
  | cons x l ih =>
    obtain ⟨c, d, argv⟩ := x
    simp only [cleanCmds, Bool.and_eq_true, Bool.or_eq_true, decide_eq_true_eq] at h
    exact .cmd c d argv (hu _ (List.mem_cons_self ..)) rfl h.1
      (ih (fun x hx => hu x (List.mem_cons_of_mem _ hx)) h.2)

theorem nearCmds_run {m : Slots} {l : List (Ctx × DsCmd × List Bytes)} (br : Branches) (s : Store)
    (h : nearCmds m l = true) : NearRun m ((traceOf br s l).map (·.1)) := by
  induction l generalizing m br s with
  | nil => trivial
  | cons x l ih =>
    obtain ⟨c, d, argv⟩ := x
    simp only [nearCmds, Bool.and_eq_true] at h
    exact ⟨nearEvent_of h.1, ih _ _ h.2⟩

theorem seqRun_of_cmds (l : List (Ctx × DsCmd × List Bytes)) (hu : ∀ x ∈ l, x.1.u = 7)
    (hc : ∀ x ∈ l, CtxOK x.1) (ha : ∀ x ∈ l, ArgsOK x.2.2) (hl : l.length ≤ maxEvents)
    (hcl : cleanCmds (fun _ => []) (freshStore .seq) l = true) (hn : nearCmds [] l = true) :
    SeqRun (some .seq) 7 (traceOf (fun _ => []) (freshStore .seq) l)
      (runCmds (fun _ => []) (freshStore .seq) l).1 (runCmds (fun _ => []) (freshStore .seq) l).2.1 where
  run := ⟨fun _ => [], freshStore .seq, Or.inl ⟨rfl, fun _ => [], freshNs_eq (some .seq) _ 7⟩, cleanCmds_run hu hcl⟩
  ev := by
    intro x hx
    obtain ⟨y, hy, he⟩ := mem_traceOf hx
    rw [he]; exact ⟨hc y hy, ha y hy⟩
  near := nearCmds_run _ _ hn
  len := by rw [traceOf_length]; exact hl

theorem exSeqCmds_args : ∀ x ∈ exSeqCmds, CtxOK x.1 ∧ ArgsOK x.2.2 := by
  intro x hx
  simp only [exSeqCmds, List.mem_cons, List.not_mem_nil, or_false] at hx
  rcases hx with rfl | rfl | rfl | rfl | rfl | rfl | rfl | rfl | rfl | rfl | rfl
  all_goals exact ⟨exCtx_ok, ⟨_, _, rfl, by decide⟩, by decide⟩

theorem exSeqRun : SeqRun (some .seq) 7 (traceOf (fun _ => []) (freshStore .seq) exSeqCmds)
    (runCmds (fun _ => []) (freshStore .seq) exSeqCmds).1 (runCmds (fun _ => []) (freshStore .seq) exSeqCmds).2.1 :=
  seqRun_of_cmds exSeqCmds (by decide) (fun x hx => (exSeqCmds_args x hx).1)
    (fun x hx => (exSeqCmds_args x hx).2) (by decide) (by decide +kernel) (by decide +kernel)

set_option maxRecDepth 100000 in
/-- The replies of the concrete execution. -/
example : (runCmds (fun _ => []) (freshStore .seq) exSeqCmds).2.2 =
    [.bulk (sid 0), .bulk (sid 1), .ok, .bulk (sid 2), .bulk (sid 0), .ok, .bulk (str "uno"), .nil,
     .bulk (str "three"), .bulk (sid 4), .int 3] := rfl

/-! ### C03 -/

/-- C03: the replies of an execution are those of a list of numbered slots.  Partial: executions that leave
    an index file without items, or reload with an empty last file, and keys far beyond the ids
    given out, are excluded (`SeqRun`); for these the claim is false, see `C46_refuted`,
    `C05_refuted` and `C43_refuted`. -/
theorem C03_replies_are_those_of_numbered_slots_partial {cfg : Option Mode} {u : Nat} {tr : List (NsEvent × Reply)}
    {br' : Branches} {s' : Store} (h : SeqRun cfg u tr br' s') : SeqAgrees [] tr := by
  obtain ⟨G, -, -, ha⟩ := h.inv
  exact ha

/-- C03, in terms of requests and replies only: a GET of an id (namespace not frozen) returns the payload
    of the last SET acknowledged with this id not followed by an acknowledged DEL, and nil if there is
    none. -/
theorem C03_get_returns_last_acknowledged_set_partial {cfg : Option Mode} {u : Nat}
    {tr : List (NsEvent × Reply)} {br' : Branches} {s' : Store} {c : Ctx} {name k : Bytes} {r : Reply}
    (h : SeqRun cfg u (tr ++ [(.cmd c .get [name, k], r)]) br' s')
    (hk : k ≠ []) (hk2 : k.length ≤ 255) (hz : c.conf.lock ≠ .frozen) :
    r = match lastSeqWrite k tr with
      | some p => .bulk p
      | none => .nil := by
  obtain ⟨G, -, -, ha⟩ := h.inv
  have hlen := h.len
  unfold maxEvents at hlen
  rw [seqAgrees_append] at ha
  have hg := seqAgrees_get [] tr ha.1 k (by simp at hlen ⊢; omega)
  have hr := ha.2.1 _ rfl
  simp only [specSeqEvent, specSeqCmd, specSeqRead, if_neg hk, if_neg (Nat.not_lt.2 hk2), if_neg hz] at hr
  rw [hr]
  have h0 : Slots.get [] k = none := by unfold Slots.get; cases seqPos k <;> simp
  rw [h0] at hg
  change _ = lastSeqWrite k tr at hg
  rw [← hg]
  cases (specSeqRun [] (tr.map (·.1))).get k <;> rfl

/-- A concrete case: id 0 was updated, id 1 deleted. -/
theorem C03_lastSeqWrite_example :
    lastSeqWrite (sid 0) (traceOf (fun _ => []) (freshStore .seq) exSeqCmds) = some (str "uno") ∧
    lastSeqWrite (sid 1) (traceOf (fun _ => []) (freshStore .seq) exSeqCmds) = none := by
  decide +kernel

/-- C03: SET with a key which is not empty and which holds nothing is refused and changes no slot. -/
theorem C03_set_of_unknown_id_refused_partial {cfg : Option Mode} {u : Nat}
    {tr : List (NsEvent × Reply)} {br' : Branches} {s' : Store} {c : Ctx} {name k p : Bytes} {r : Reply}
    (h : SeqRun cfg u (tr ++ [(.cmd c .set [name, k, p], r)]) br' s')
    (hk : k ≠ []) (hw : lastSeqWrite k tr = none) :
    (∀ id, r ≠ .bulk id) ∧
      specSeqRun [] ((tr ++ [(NsEvent.cmd c .set [name, k, p], r)]).map (·.1)) = specSeqRun [] (tr.map (·.1)) := by
  obtain ⟨G, -, -, ha⟩ := h.inv
  have hlen := h.len
  unfold maxEvents at hlen
  rw [seqAgrees_append] at ha
  have hg := seqAgrees_get [] tr ha.1 k (by simp at hlen ⊢; omega)
  have hr := ha.2.1 _ rfl
  have h0 : Slots.get [] k = none := by unfold Slots.get; cases seqPos k <;> simp
  rw [h0] at hg
  change _ = lastSeqWrite k tr at hg
  rw [hw] at hg
  simp only [Option.map_eq_none_iff] at hg
  have hrun : specSeqRun [] ((tr ++ [(NsEvent.cmd c .set [name, k, p], r)]).map (·.1)) =
      (specSeqEvent (specSeqRun [] (tr.map (·.1))) (.cmd c .set [name, k, p])).1 := by
    rw [List.map_append]; exact specSeqRun_snoc _ _ _
  rw [hrun]
  simp only [specSeqEvent, specSeqCmd] at hr ⊢
  rcases specSeqSet_cases c.conf c.writable (c.io.dhdr.ok && c.io.dpay.ok) (specSeqRun [] (tr.map (·.1))) k p
    (c.now % 2 ^ 32) with ⟨h3, h4⟩ | ⟨h3, h4, h5, h6⟩ | ⟨v, h3, h4, h6⟩
  · exact ⟨fun id => by rw [hr]; exact h3 id, h4⟩
  · exact absurd h4 hk
  · rw [hg] at h3; cases h3

/-! ### C04 -/

/-- C04: the ids returned by acknowledged SETs with an empty key are 8 bytes long and strictly grow. -/
theorem C04_ids_strictly_grow_partial {cfg : Option Mode} {u : Nat} {tr : List (NsEvent × Reply)}
    {br' : Branches} {s' : Store} (h : SeqRun cfg u tr br' s') :
    (tr.filterMap insertedId).Pairwise (fun a b => fromLE a < fromLE b) ∧
      ∀ id ∈ tr.filterMap insertedId, id.length = 8 := by
  obtain ⟨G, -, -, ha⟩ := h.inv
  have hlen := h.len
  unfold maxEvents at hlen
  have := seqAgrees_ids [] tr ha (by simp; omega)
  exact ⟨this.1, fun id hid => (this.2 id hid).1⟩

/-- C04: the id returned by an insertion is the number of SETs acknowledged before. -/
theorem C04_id_is_number_of_sets_partial {cfg : Option Mode} {u : Nat} {tr : List (NsEvent × Reply)}
    {br' : Branches} {s' : Store} {c : Ctx} {name p id : Bytes}
    (h : SeqRun cfg u (tr ++ [(.cmd c .set [name, [], p], .bulk id)]) br' s') : id = toLE 8 (ackedSets tr) := by
  obtain ⟨G, -, -, ha⟩ := h.inv
  rw [seqAgrees_append] at ha
  have hl := specSeqRun_length [] tr ha.1
  simp only [List.length_nil, Nat.zero_add] at hl
  have hr := ha.2.1 _ rfl
  rcases specSeqSet_cases c.conf c.writable (c.io.dhdr.ok && c.io.dpay.ok) (specSeqRun [] (tr.map (·.1))) [] p
    (c.now % 2 ^ 32) with ⟨h3, h4⟩ | ⟨h3, h4, h5, h6⟩ | ⟨v, h3, h4, h6⟩
  · exact absurd hr.symm (h3 id)
  · change Reply.bulk id = (specSeqSet c.conf c.writable (c.io.dhdr.ok && c.io.dpay.ok)
      (specSeqRun [] (tr.map (·.1))) [] p (c.now % 2 ^ 32)).2 at hr
    rw [h5, hl] at hr
    simpa using hr
  · have := (Slots.some_lt h3).1; simp at this

/-- The ids of the concrete execution. -/
example : (traceOf (fun _ => []) (freshStore .seq) exSeqCmds).filterMap insertedId =
    [sid 0, sid 1, sid 2, sid 4] := by decide +kernel

/-! ### C05 -/

/-- C05 (1): reloading succeeds if the last index file has items or is the only one. -/
theorem C05_reload_succeeds_partial {cfg : Option Mode} {u : Nat} {tr : List (NsEvent × Reply)}
    {br' : Branches} {s' : Store} (h : SeqRun cfg u tr br' s') (hlen : tr.length < maxEvents)
    (hlast : s'.indexid = 0 ∨ 29 < fileLen s'.ifiles s'.indexid) :
    ∃ br'' s'', reloadNs cfg br' u s' = .ok br'' s'' ∧ SeqRun cfg u (tr ++ [(.reload, .ok)]) br'' s'' ∧
      s''.ifiles = s'.ifiles ∧ s''.dfiles = s'.dfiles := by
  obtain ⟨G, hi, -, -⟩ := h.inv
  have hid := hi.iid
  have hfl := hi.fileLen
  obtain ⟨s'', h1, -, h3, h4, -⟩ := hi.reload br' u cfg h.hcfg (h.room hi hlen) (by omega)
  refine ⟨br', s'', h1, ?_, h3, h4⟩
  exact h.append (by simp; omega) (by simp [EvOK]) ⟨trivial, trivial⟩ (.reload h1 hlast (.nil _ _))

/-- C05 (2): two executions with the same commands give the same replies, wherever restarts happened. -/
theorem C05_restarts_are_invisible_partial {cfg cfg' : Option Mode} {u u' : Nat} {tr tr' : List (NsEvent × Reply)}
    {br br' : Branches} {s s' : Store} (h : SeqRun cfg u tr br s) (h' : SeqRun cfg' u' tr' br' s')
    (hc : cmdsOf tr = cmdsOf tr') : visible tr = visible tr' := by
  obtain ⟨G, -, -, ha⟩ := h.inv
  obtain ⟨G', -, -, ha'⟩ := h'.inv
  rw [seqVisible_eq [] tr ha, seqVisible_eq [] tr' ha', hc]

set_option maxRecDepth 100000 in
/-- A concrete case: a reload in the middle. -/
example : runReload (exSeqCmds.take 5) (exSeqCmds.drop 5) =
    some [.ok, .bulk (str "uno"), .nil, .bulk (str "three"), .bulk (sid 4), .int 3] := rfl

set_option maxRecDepth 100000 in
/-- C05 does not hold in general: after SET, NSJUMP and a restart, a SET is acknowledged with id 1 but a GET
    of id 1 finds nothing, while without the restart it returns the payload.  The loader pushes no
    entry in the id-to-file map for an index file without items (libzdb/index_loader.c:345-348). -/
theorem C05_refuted :
    runReload [(exCtx, .set, [str "SET", [], str "one"]), (exCtx, .nsjump, [str "NSJUMP"])]
      [(exCtx, .set, [str "SET", [], str "two"]), (exCtx, .get, [str "GET", sid 1])] =
        some [.bulk (sid 1), .nil] ∧
    (runCmds (fun _ => []) (freshStore .seq)
      [(exCtx, .set, [str "SET", [], str "one"]), (exCtx, .nsjump, [str "NSJUMP"]),
       (exCtx, .set, [str "SET", [], str "two"]), (exCtx, .get, [str "GET", sid 1])]).2.2 =
        [.bulk (sid 0), .ok, .bulk (sid 1), .bulk (str "two")] := ⟨rfl, rfl⟩

/-! ### C43 -/

/-- C43: an id which no SET returned, if its place in an index file fits 32 bits, is not found by GET. -/
theorem C43_never_issued_never_found_partial {cfg : Option Mode} {u : Nat}
    {tr : List (NsEvent × Reply)} {br' : Branches} {s' : Store} (h : SeqRun cfg u tr br' s') {c : Ctx}
    {k : Bytes} (hk : 29 + 42 * fromLE k < 2 ^ 32) (hne : ackedSets tr ≤ fromLE k) :
    getSingle c br' s' k = .nil ∧ indexGet br' s' u k = none := by
  obtain ⟨G, hi, hG, ha⟩ := h.inv
  have hl := specSeqRun_length [] tr ha
  rw [← hG] at hl
  simp only [List.length_nil, Nat.zero_add] at hl
  have hnear : Near G k := fun _ => Or.inr hk
  have hnone : (absSlots G).get k = none := by
    cases hg : (absSlots G).get k with
    | none => rfl
    | some v => have := (Slots.some_lt hg).2; omega
  refine ⟨by rw [seqGetSingle_spec hi k hnear, hnone]; rfl, ?_⟩
  rw [hi.indexGet u k hnear]
  rw [absSlots_get] at hnone
  simp only [Option.map_eq_none_iff] at hnone ⊢
  exact hnone

set_option maxRecDepth 100000 in
/-- C43 does not hold for all 2^64 ids: the position `29 + 42 * id` is computed on 32 bits
    (libzdb/index_get.c:32), thus after one SET the id 2^31, never returned, reads, updates and
    deletes the key 0. -/
theorem C43_refuted :
    (runCmds (fun _ => []) (freshStore .seq)
      [(exCtx, .set, [str "SET", [], str "one"]), (exCtx, .get, [str "GET", sid (2 ^ 31)]),
       (exCtx, .exists, [str "EXISTS", sid (2 ^ 31)]), (exCtx, .del, [str "DEL", sid (2 ^ 31)]),
       (exCtx, .get, [str "GET", sid 0])]).2.2 =
    [.bulk (sid 0), .bulk (str "one"), .int 1, .ok, .nil] := rfl

/-! ### C46 -/

/-- C46 (sequential mode, SCAN excepted): two executions which differ only in NSJUMP commands (and restarts)
    give the same replies to all other commands. -/
theorem C46_seq_jumps_are_invisible_partial {cfg cfg' : Option Mode} {u u' : Nat} {tr tr' : List (NsEvent × Reply)}
    {br br' : Branches} {s s' : Store} (h : SeqRun cfg u tr br s) (h' : SeqRun cfg' u' tr' br' s')
    (hc : (cmdsOf tr).filter (fun x => x.2.1 != .nsjump) = (cmdsOf tr').filter (fun x => x.2.1 != .nsjump)) :
    (visible tr).filter (fun x => x.1.2.1 != .nsjump) = (visible tr').filter (fun x => x.1.2.1 != .nsjump) := by
  obtain ⟨G, -, -, ha⟩ := h.inv
  obtain ⟨G', -, -, ha'⟩ := h'.inv
  rw [seqVisible_eq [] tr ha, seqVisible_eq [] tr' ha']
  have hq : ∀ d : DsCmd, (d != .nsjump) = false → d.writes = false := by
    intro d hd; cases d <;> simp_all [DsCmd.writes]
  have e1 := specSeqReplies_filter [] (cmdsOf tr) (· != .nsjump) hq
  have e2 := specSeqReplies_filter [] (cmdsOf tr') (· != .nsjump) hq
  rw [← e1, ← e2, hc]

set_option maxRecDepth 100000 in
/-- C46 does not hold in general in sequential mode: after two NSJUMPs in a row an acknowledged SET cannot be
    read; with one, or none, it can.  Two files then have the same first id in the map, and the search
    stops at the first one it meets (libzdb/index_seq.c:19-21). -/
theorem C46_refuted :
    (runCmds (fun _ => []) (freshStore .seq)
      [(exCtx, .set, [str "SET", [], str "one"]), (exCtx, .nsjump, [str "NSJUMP"]), (exCtx, .nsjump, [str "NSJUMP"]),
       (exCtx, .set, [str "SET", [], str "two"]), (exCtx, .get, [str "GET", sid 1])]).2.2 =
      [.bulk (sid 0), .ok, .ok, .bulk (sid 1), .nil] ∧
    (runCmds (fun _ => []) (freshStore .seq)
      [(exCtx, .set, [str "SET", [], str "one"]),
       (exCtx, .set, [str "SET", [], str "two"]), (exCtx, .get, [str "GET", sid 1])]).2.2 =
      [.bulk (sid 0), .bulk (sid 1), .bulk (str "two")] := ⟨rfl, rfl⟩

/-! ### C07, C08, C49 -/

/-- C07 (sequential mode): DBSIZE and the total size are exactly the number and the total size of the ids
    that GET finds. -/
theorem C07_seq_counters_are_exact {cfg : Option Mode} {u : Nat} {tr : List (NsEvent × Reply)}
    {br' : Branches} {s' : Store} (h : SeqRun cfg u tr br' s') (c : Ctx) :
    ∃ slots : List (Option Bytes),
      (∀ i p, slots[i]? = some (some p) ↔ i < slots.length ∧ getSingle c br' s' (toLE 8 i) = .bulk p) ∧
      cmdDbsize s' = .int (slots.filter Option.isSome).length ∧
      s'.datasize = (slots.map (fun p => (p.getD []).length)).sum := by
  obtain ⟨G, hi, hG, ha⟩ := h.inv
  have hlen := h.len
  unfold maxEvents at hlen
  have hl := specSeqRun_length [] tr ha
  have hle := ackedSets_le tr
  rw [← hG] at hl
  simp only [List.length_nil, Nat.zero_add] at hl
  refine ⟨(absSlots G).map (·.map (·.payload)), ?_, ?_, ?_⟩
  · intro i p
    rw [List.length_map]
    by_cases hlt : i < (absSlots G).length
    · have hf : fromLE (toLE 8 i) = i := fromLE_toLE8 (by omega)
      have hnear : Near G (toLE 8 i) := fun _ => Or.inl (by rw [hf, ← absSlots_length]; exact hlt)
      rw [seqGetSingle_spec hi _ hnear, Slots.get_eq _ (toLE_length 8 i), hf, List.getElem?_map,
        List.getElem?_eq_getElem hlt]
      simp only [Option.map_some, Option.some.injEq, hlt, true_and, Option.join_some]
      cases (absSlots G)[i] <;> simp [replyGet]
    · rw [List.getElem?_eq_none (by simpa using Nat.not_lt.1 hlt)]
      simp [hlt]
  · rw [cmdDbsize, hi.entries_eq]
    simp only [Slots.count, Reply.int.injEq]
    rw [List.filter_map, List.length_map]
    congr 2
    apply List.filter_congr
    intro x _
    cases x <;> rfl
  · rw [hi.total_eq, Slots.total, List.map_map]
    congr 1
    apply List.map_congr_left
    intro x _
    cases x <;> rfl

/-- C08 (sequential mode): with a constant quota the total payload never exceeds it. -/
theorem C08_seq_total_within_quota {cfg : Option Mode} {u : Nat} {tr : List (NsEvent × Reply)}
    {br' : Branches} {s' : Store} (h : SeqRun cfg u tr br' s') (q : Nat) (hq : q ≠ 0)
    (hall : ∀ x ∈ tr, ∀ c d argv, x.1 = .cmd c d argv → c.conf.maxsize = q) : s'.datasize ≤ q := by
  obtain ⟨G, hi, hG, ha⟩ := h.inv
  rw [hi.total_eq, hG]
  exact specSeqRun_quota q hq [] tr ha (Nat.zero_le _) hall

/-- C08 (sequential mode): a SET creating or updating a key that passes the other checks is refused for lack
    of space exactly if the total payload afterwards would exceed the quota. -/
theorem C08_seq_set_refused_iff_over_quota {cfg : Option Mode} {u : Nat} {tr : List (NsEvent × Reply)}
    {br' : Branches} {s' : Store} {c : Ctx} {name k p : Bytes} {r : Reply}
    (h : SeqRun cfg u (tr ++ [(.cmd c .set [name, k, p], r)]) br' s')
    (hk2 : k.length ≤ 255) (hw : c.writable = true) (hl : c.conf.lock = .unlocked)
    (hworm : c.conf.worm = false) :
    r = .err "No space left on this namespace" ↔
      c.conf.maxsize ≠ 0 ∧
      (specSeqRun [] (tr.map (·.1))).total - slotSize ((specSeqRun [] (tr.map (·.1))).get k) + p.length >
        c.conf.maxsize := by
  obtain ⟨G, -, -, ha⟩ := h.inv
  rw [seqAgrees_append] at ha
  have hr := ha.2.1 _ rfl
  generalize specSeqRun [] (tr.map (·.1)) = m at hr
  simp only [specSeqEvent, specSeqCmd, specSeqSet, if_neg (Nat.not_lt.2 hk2), writeRefusal, hw, hl, hworm] at hr
  simp only [Bool.not_true, Bool.false_eq_true, if_false, Bool.and_false] at hr
  constructor
  · intro he
    rw [hr] at he
    by_cases hq : c.conf.maxsize ≠ 0 ∧ m.total - slotSize (m.get k) + p.length > c.conf.maxsize
    · exact hq
    · rw [if_neg hq] at he
      split at he
      · split at he
        · simp at he
        · split at he <;> simp at he
      · split at he
        · simp at he
        · split at he <;> simp at he
  · intro hq
    rw [hr, if_pos hq]

/-- C49 (sequential mode): two executions with the same SETs and DELs give the same replies to them, whatever
    else was asked in between. -/
theorem C49_seq_only_writes_matter {cfg cfg' : Option Mode} {u u' : Nat} {tr tr' : List (NsEvent × Reply)}
    {br br' : Branches} {s s' : Store} (h : SeqRun cfg u tr br s) (h' : SeqRun cfg' u' tr' br' s')
    (hc : writesOf (cmdsOf tr) = writesOf (cmdsOf tr')) :
    (visible tr).filter (fun x => x.1.2.1.writes) = (visible tr').filter (fun x => x.1.2.1.writes) := by
  obtain ⟨G, -, -, ha⟩ := h.inv
  obtain ⟨G', -, -, ha'⟩ := h'.inv
  rw [seqVisible_eq [] tr ha, seqVisible_eq [] tr' ha']
  have e1 := specSeqReplies_filter [] (cmdsOf tr) DsCmd.writes (fun d hd => hd)
  have e2 := specSeqReplies_filter [] (cmdsOf tr') DsCmd.writes (fun d hd => hd)
  unfold writesOf at hc
  rw [← e1, ← e2, hc]

/-! ### C17, C23, C26 -/

theorem SInv.inStep {s : Store} {G : Log} (hi : SInv s G) : InStep s := by
  have hid := hi.iid
  have hil := hi.irep.length
  exact ⟨by rw [hi.dlen, hi.did]; omega, by omega, hi.did⟩

/-- C17 (sequential mode): between two moments of an execution every data file only grows at its end, and
    only the file which was current can grow. -/
theorem C17_seq_data_files_append_only {cfg : Option Mode} {u : Nat} {tr tr' : List (NsEvent × Reply)}
    {br br' : Branches} {s s' : Store} (h : SeqRun cfg u tr br s) (h' : CleanRun cfg u br s tr' br' s')
    (hev : ∀ x ∈ tr', EvOK x.1) (hn : NearRun (specSeqRun [] (tr.map (·.1))) (tr'.map (·.1)))
    (hlen : tr.length + tr'.length ≤ maxEvents) :
    ∀ (i : Nat) (f : Bytes), s.dfiles[i]? = some f →
      ∃ x, s'.dfiles[i]? = some (f ++ x) ∧ (i + 1 < s.dfiles.length → x = []) := by
  have key : DataExt s s' := by
    induction h' generalizing tr with
    | nil => exact DataExt.refl _
    | @cmd c d argv br br1 br2 s s1 s2 r tr' hu h1 hcl h2 ih =>
      obtain ⟨G, hi, -, -⟩ := h.inv
      have hx := hev _ (List.mem_cons_self ..)
      simp only [List.length_cons] at hlen
      have hcap := h.room hi (by omega)
      have hil := hi.irep.length
      have hid := hi.iid
      have he := dsCommand_ext c br hi.inStep (by omega) d argv
      rw [h1] at he
      have hs := h.append (tr' := [(.cmd c d argv, r)]) (by simp; omega) (by simpa using hx) ⟨hn.1, trivial⟩
        (.cmd c d argv hu h1 hcl (.nil _ _))
      refine he.ext.trans (ih hs (fun x hx => hev x (List.mem_cons_of_mem _ hx)) ?_ (by simp; omega))
      have e : specSeqRun [] ((tr ++ [(NsEvent.cmd c d argv, r)]).map (·.1)) =
          (specSeqEvent (specSeqRun [] (tr.map (·.1))) (.cmd c d argv)).1 := by
        rw [List.map_append]; exact specSeqRun_snoc _ _ _
      rw [e]; exact hn.2
    | @foreign br br1 br2 s s2 tr' h1 h2 ih =>
      simp only [List.length_cons] at hlen
      have hs := h.append (tr' := [(.foreign, .nil)]) (by simp; omega) (by simp [EvOK]) ⟨trivial, trivial⟩
        (.foreign h1 (.nil _ _))
      refine ih hs (fun x hx => hev x (List.mem_cons_of_mem _ hx)) ?_ (by simp; omega)
      have e : specSeqRun [] ((tr ++ [(NsEvent.foreign, Reply.nil)]).map (·.1)) =
          (specSeqEvent (specSeqRun [] (tr.map (·.1))) .foreign).1 := by
        rw [List.map_append]; exact specSeqRun_snoc _ _ _
      rw [e]; exact hn.2
    | @reload br br1 br2 s s1 s2 tr' h1 hcl h2 ih =>
      simp only [List.length_cons] at hlen
      obtain ⟨br'', s'', k1, k2, k3, k4⟩ := C05_reload_succeeds_partial h (by omega) hcl
      rw [h1] at k1
      injection k1 with k1 k1'
      subst k1; subst k1'
      obtain ⟨G, hi, -, -⟩ := h.inv
      obtain ⟨G', hi', -, -⟩ := k2.inv
      have hsame : s.dataid = s1.dataid := by
        have a1 := hi.iid
        have a2 := hi'.iid
        have a3 := hi.dlen
        have a4 := hi'.dlen
        have a5 := hi.did
        have a6 := hi'.did
        rw [k4] at a4
        omega
      refine DataExt.trans (t := s1) ⟨by omega, fun i f hf => ⟨[], by rw [k4]; simpa using hf, fun _ => rfl⟩⟩ ?_
      refine ih k2 (fun x hx => hev x (List.mem_cons_of_mem _ hx)) ?_ (by simp; omega)
      have e : specSeqRun [] ((tr ++ [(NsEvent.reload, Reply.ok)]).map (·.1)) =
          (specSeqEvent (specSeqRun [] (tr.map (·.1))) .reload).1 := by
        rw [List.map_append]; exact specSeqRun_snoc _ _ _
      rw [e]; exact hn.2
  intro i f hf
  obtain ⟨G, hi, -, -⟩ := h.inv
  obtain ⟨x, hx, hx0⟩ := key.2 i f hf
  refine ⟨x, hx, fun hlt => hx0 ?_⟩
  have a1 := hi.iid
  have a3 := hi.dlen
  have a5 := hi.did
  omega

/-- C23 (1, sequential mode): there are as many index files as data files and the last ones are the
    current ones. -/
theorem C23_seq_files_in_step {cfg : Option Mode} {u : Nat} {tr : List (NsEvent × Reply)}
    {br : Branches} {s : Store} (h : SeqRun cfg u tr br s) :
    s.ifiles.length = s.dfiles.length ∧ s.indexid + 1 = s.ifiles.length ∧ s.dataid + 1 = s.dfiles.length := by
  obtain ⟨G, hi, -, -⟩ := h.inv
  have a1 := hi.iid
  have a2 := hi.irep.length
  have a3 := hi.dlen
  have a5 := hi.did
  omega

/-- C23 (2, sequential mode): after an acknowledged SET the payload is at the end of the data file which is
    current. -/
theorem C23_seq_payload_in_current_file {cfg : Option Mode} {u : Nat} {tr : List (NsEvent × Reply)}
    {br br' : Branches} {s s' : Store} (h : SeqRun cfg u tr br s) (hlen : tr.length < maxEvents)
    {c : Ctx} {name k p k' : Bytes} (hs : dsCommand c br s .set [name, k, p] = (br', s', .bulk k')) :
    ∃ f, s'.dfiles[s'.dataid]? = some (f ++ p) := by
  obtain ⟨G, hi, -, -⟩ := h.inv
  have hcap := h.room hi hlen
  have hil := hi.irep.length
  have hid := hi.iid
  have he := (cmdSet_body_ext c br hi.inStep (by omega) [name, k, p] k p).2
  simp only [dsCommand, cmdSet] at hs
  rw [hs] at he
  obtain ⟨hh, f, hf⟩ := he k' rfl
  exact ⟨f ++ (encDHdr hh ++ k'), by rw [hf]; simp⟩

/-- C26 (daemon, sequential mode): a SET is answered nil (nothing stored) only if GET returns exactly
    the payload given. -/
theorem C26_seq_set_skipped_only_if_identical {cfg : Option Mode} {u : Nat} {tr : List (NsEvent × Reply)}
    {br br' : Branches} {s s' : Store} {c : Ctx} {name k p : Bytes}
    (h : SeqRun cfg u tr br s) (h' : SeqRun cfg u (tr ++ [(.cmd c .set [name, k, p], .nil)]) br' s') :
    getSingle c br s k = .bulk p := by
  obtain ⟨G, hi, hG, -⟩ := h.inv
  obtain ⟨G2, -, -, ha2⟩ := h'.inv
  rw [seqAgrees_append, ← hG] at ha2
  have hr := ha2.2.1 _ rfl
  have hnear := h'.near
  rw [List.map_append, nearRun_append, ← hG] at hnear
  have hnk : Near G k := near_iff.1 (hnear.2.1 k rfl)
  rw [seqGetSingle_spec hi k hnk]
  simp only [specSeqEvent, specSeqCmd, specSeqSet] at hr
  split at hr
  · simp at hr
  · split at hr
    · simp at hr
    · split at hr
      · simp at hr
      · split at hr
        · simp at hr
        · split at hr
          · split at hr
            · simp at hr
            · split at hr <;> simp at hr
          · rename_i v hv
            split at hr
            · rename_i hp
              rw [hv]
              simp only [replyGet]
              rw [hp]
            · split at hr <;> simp at hr

end Zdb
