/-
C60 for HISTORY: keys and cursors handed to it.
-/
import Verif.Props.FarIds
import Verif.Props.Refused
import Verif.Lemmas.History
import Verif.Spec.NodeExample
namespace Zdb

/-- A request that runs a command whose lookups stay within the buffers and whose handler does not fault. -/
theorem request_safe {S : Settings} {n : Node} {fd : Nat} {e : Env} {argv : List Bytes} {p : Picked}
    (hp : pick n fd e argv = some p) {d : DsCmd} (hd : p.h = .ds d)
    (ho : ∀ c : Ctx, c.u = p.r.uid → (lookedUp c d p.argv).any (seqOverrun p.r.store) = false ∧
      (dsCommand c n.br p.r.store d p.argv).2.2 ≠ .crash) : request S n fd e argv ≠ .crash := by
  unfold pick at hp
  split at hp
  · cases hp
  · rename_i c hc
    split at hp
    · rename_i e' key rest u hpo hns
      split at hp
      · rename_i i r hl hr
        obtain ⟨hh, hhi, rfl⟩ := Option.map_eq_some_iff.1 hp
        dsimp only at hd ho
        unfold request
        rw [hc]
        dsimp only
        split
        · simp
        · rw [hpo]
          dsimp only
          have hdis : dispatch S e' n c (key :: rest) = cmdDs S e' n { c with executed := some i } r d (key :: rest) := by
            unfold dispatch
            rw [hns]
            dsimp only
            rw [hl]
            dsimp only
            rw [hr, hhi]
            dsimp only
            rw [hd]
            rfl
          rw [hdis]
          unfold cmdDs
          obtain ⟨h1, hnc⟩ := ho (ctxOf S e' { c with executed := some i } r) rfl
          rw [h1]
          simp only [Bool.false_eq_true, if_false]
          generalize dsCommand (ctxOf S e' { c with executed := some i } r) n.br r.store d (key :: rest) = x at hnc
          obtain ⟨br, s, rep⟩ := x
          cases rep <;> first | exact absurd rfl hnc | (simp [say, mirrorCrash, hns])
      · cases hp
    · cases hp

theorem historySend_no_crash {s : Store} {it : Item} {k : EKey} : historySend s it k ≠ .crash := by
  unfold historySend
  split <;> simp

/-- HISTORY faults only if the entry of its key has no item on disk. -/
theorem cmdHistory_no_crash {c : Ctx} {br : Branches} {s : Store} {argv : List Bytes}
    (h : ∀ n k, argv = [n, k] → ∀ e, indexGet br s c.u (key8 k) = some e → (itemGetDisk s e.indexid e.idxoffset e.id.length).isSome) :
    cmdHistory c br s argv ≠ .crash := by
  unfold cmdHistory
  split
  · rename_i n k
    split
    · simp [errFrozen]
    · cases hi : indexGet br s c.u (key8 k) with
      | none => simp
      | some e =>
        obtain ⟨it, hit⟩ := Option.isSome_iff_exists.1 (h n k rfl e hi)
        simp only [hit]
        exact historySend_no_crash
  · split
    · simp [errFrozen]
    · split
      · simp
      · dsimp only
        split
        · simp
        · split
          · simp
          · split
            · simp
            · exact historySend_no_crash
  · simp

theorem lookedUp_history {c : Ctx} {argv : List Bytes} {k : Bytes} (h : k ∈ lookedUp c .history argv) :
    ∃ n k', argv = [n, k'] ∧ k = key8 k' := by
  simp only [lookedUp] at h
  split at h
  · split at h
    · simp at h
    · exact ⟨_, _, rfl, by simpa using h⟩
  · simp at h

/-- **C60**, cursors of HISTORY: whatever key and cursor a client sends, in any mode and any state of the files, the request stays
    within its buffers. -/
theorem C60_history_cursor (S : Settings) {n : Node} {fd : Nat} {e : Env} {argv : List Bytes} {p : Picked}
    (hp : pick n fd e argv = some p) (hd : p.h = .ds .history) (hl : p.argv.length ≠ 2) : request S n fd e argv ≠ .crash := by
  refine request_safe hp hd (fun c _ => ⟨?_, ?_⟩)
  · cases ha : (lookedUp c .history p.argv).any (seqOverrun p.r.store) with
    | false => rfl
    | true =>
      obtain ⟨k, hk, -⟩ := List.any_eq_true.1 ha
      obtain ⟨a, b, h, -⟩ := lookedUp_history hk
      rw [h] at hl
      simp at hl
  · exact cmdHistory_no_crash (fun a b h => by rw [h] at hl; simp at hl)

/-- **C60**, HISTORY in user-key mode: whatever key a client sends, in every state that the life of a namespace reaches, the request stays
    within its buffers, and follows no null pointer. -/
theorem C60_user_history_partial {S : Settings} {u : Nat} {n n1 : Node} {l : List (Event × List (Nat × Msg))}
    {tr : List (NsEvent × Reply)} (hn : Reachable S n) (hlim : S.limit ≤ 2 ^ 31) (hcfg : S.cfg = none ∨ S.cfg = some .user)
    (h0 : storeOf n u = some (freshStore .user)) (h : Life S u n l tr n1) (hlen : tr.length ≤ maxEvents)
    {fd : Nat} {e : Env} {argv : List Bytes} {p : Picked} (hp : pick n1 fd e argv = some p) (hd : p.h = .ds .history)
    (hu : nsDeref n1 u = some p.r) : request S n1 fd e argv ≠ .crash := by
  have hrun := h.userRun hn.inv hlim hcfg h0 hlen (s' := p.r.store) (by unfold storeOf; rw [hu]; rfl)
  obtain ⟨G, hi, -⟩ := hrun.inv
  have hru : p.r.uid = u := (nsDeref_some hu).2
  refine request_safe hp hd (fun c hc => ⟨?_, ?_⟩)
  · rw [List.any_eq_false]
    intro k _
    rw [seqOverrun_user hi.mode]
    simp
  · refine cmdHistory_no_crash (fun a k _ x hx => ?_)
    have hcu : c.u = u := hc.trans hru
    rw [hcu, hi.indexGet] at hx
    obtain ⟨m, hm, rfl⟩ := Option.map_eq_some_iff.1 hx
    have := hi.historyItem (live_mem (liveGet_some hm).1)
    simp only [Loc.entry]
    rw [show m.r.item.id.length = m.id.length from rfl, this]
    rfl

/-- **C60**, HISTORY in sequential mode, with the conditions of `C60_seq_keys_partial`. -/
theorem C60_seq_history_partial {S : Settings} {u : Nat} {n n1 : Node} {l : List (Event × List (Nat × Msg))}
    {tr : List (NsEvent × Reply)} (hn : Reachable S n) (hlim : S.limit ≤ 2 ^ 31) (hcfg : S.cfg = none ∨ S.cfg = some .seq)
    (h0 : storeOf n u = some (freshStore .seq)) (h : SeqLife S u n l tr n1) (hlen : tr.length ≤ maxEvents)
    (hnear : NearRun [] (tr.map (·.1))) {fd : Nat} {e : Env} {argv : List Bytes} {p : Picked}
    (hp : pick n1 fd e argv = some p) (hd : p.h = .ds .history) (hu : nsDeref n1 u = some p.r)
    (hk : ∀ a k, p.argv = [a, k] → NearKey (specSeqRun [] (tr.map (·.1))) (key8 k)) : request S n1 fd e argv ≠ .crash := by
  have hrun := h.seqRun hn.inv hlim hcfg h0 hnear hlen (s' := p.r.store) (by unfold storeOf; rw [hu]; rfl)
  obtain ⟨G, hi, hG, -⟩ := hrun.inv
  have hk' : ∀ a k, p.argv = [a, k] → Near G (key8 k) := by
    intro a k ha
    have := hk a k ha
    rw [← hG] at this
    exact near_iff.1 this
  refine request_safe hp hd (fun c hc => ⟨?_, ?_⟩)
  · rw [List.any_eq_false]
    intro k h1
    obtain ⟨a, b, h2, rfl⟩ := lookedUp_history h1
    rw [hi.look.noOverrun _ (hk' a b h2)]
    simp
  · refine cmdHistory_no_crash (fun a k ha x hx => ?_)
    rw [hi.indexGet _ _ (hk' a k ha)] at hx
    obtain ⟨m, hm, rfl⟩ := Option.map_eq_some_iff.1 hx
    obtain ⟨-, -, hmem, -⟩ := hi.slot hm
    obtain ⟨fs, hfs, hfs2⟩ := hi.look.irep
    obtain ⟨pre, post, hf0, hpre⟩ := hfs.at hmem
    have hf1 := hfs2 _ _ hf0
    have hf2 := readExact_at (f := pre ++ (encItem m.r.item ++ post)) (off := m.off)
      (len := itemHdr + m.r.item.id.length) rfl hpre.symm (by simp [itemHdr])
    simp only [Loc.sentry, Loc.entry, itemGetDisk, hf1, hf2, Option.map_some, Option.isSome_some]

set_option maxRecDepth 100000 in
/-- A case: `exLife`, after which client 7 asks for the history of a key, of a deleted one, and of keys too long to exist. -/
theorem C60_user_history_example : ∃ n n1 l tr, Reachable exS n ∧ Life exS 1001 n l tr n1 ∧
    ∀ k, request exS n1 7 (exE 8) [str "HISTORY", k] ≠ .crash := by
  have hr := ran_reachable (S := exS) (m := .user) rfl exNode_started exBirth
  have hlive : (runLife exS 1001 (ranNode exS exBirth) exLife).isSome = true := by decide +kernel
  obtain ⟨⟨n1, tr⟩, h⟩ := Option.isSome_iff_exists.1 hlive
  obtain ⟨l, hl⟩ := runLife_life (m := .user) rfl hr.inv h
  have htr : tr = ((runLife exS 1001 (ranNode exS exBirth) exLife).map (·.2)).getD [] := by rw [h]; rfl
  have hlen : tr.length ≤ maxEvents := by rw [htr]; decide +kernel
  have hq : ((runLife exS 1001 (ranNode exS exBirth) exLife).map (fun x =>
      match getClient x.1 7, nsDeref x.1 1001 with
      | some c, some _ => !c.master && (c.ns == some 1001)
      | _, _ => false)) = some true := by decide +kernel
  rw [h] at hq
  simp only [Option.map_some, Option.some.injEq] at hq
  refine ⟨_, n1, l, tr, hr, hl, fun k => ?_⟩
  split at hq
  · rename_i c r hc hr'
    simp only [Bool.and_eq_true, Bool.not_eq_true', beq_iff_eq] at hq
    have hp : pick n1 7 (exE 8) [str "HISTORY", k] = some ⟨c, r, .ds .history, exE 8, [str "HISTORY", k]⟩ := by
      unfold pick
      rw [hc]
      simp only [popOwner, hq.1, hq.2]
      simp only [Bool.false_eq_true, if_false, hr']
      rfl
    exact C60_user_history_partial hr (by decide) (Or.inr rfl) rfl hl hlen hp rfl hr'
  · cases hq

/-- C60 is false for the keys of HISTORY, too: the id of `C60_refuted`. -/
theorem C60_history_refuted : reaches exSeqS exFar2 (fun n _ =>
    crashes exSeqS n (.request 6 (exE 1) [str "HISTORY", sid 511305631]) &&
    !crashes exSeqS n (.request 6 (exE 1) [str "HISTORY", sid 1]) &&
    !crashes exSeqS n (.request 6 (exE 1) [str "HISTORY", sid 511305631, encEKey ⟨0, 30⟩])) = true := by decide +kernel

end Zdb
