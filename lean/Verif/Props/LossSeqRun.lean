/-
C69 in sequential mode, at any moment of an execution.
-/
import Verif.Lemmas.LossSeq
import Verif.Props.LossSeq
namespace Zdb

/-- **C69**, sequential mode, any number of damages at any moments: commands and restarts go on as if the data files were whole.
    There is an execution of the same events without damage which ends in the same state, but for the contents of the data files that
    are not written to any more.  Replies to commands that do not read data files are those of the numbered slots.  Missing: SETs
    that are skipped, or not skipped, because of the damage (`AsTold`). -/
theorem C69_seq_run_partial {cfg : Option Mode} {u : Nat} {tr : List (LossEvent × Reply)} {br : Branches} {t : Store}
    (h : SeqLossRun cfg u tr br t) :
    (∃ trg s, SeqRun cfg u trg br s ∧ trg.map (·.1) = evsOf tr ∧ Damage s t.dfiles ∧ t = { s with dfiles := t.dfiles }) ∧
    AgreesButData [] tr := by
  obtain ⟨b0, s0, h0, h1⟩ := h.run
  obtain ⟨hcfg, hs0⟩ := h0.fresh
  subst hs0
  have hlen := h.len
  have hgh : (freshStore .seq).gh [] = freshStore .seq := rfl
  have hf : absSlots [[]] = [] := rfl
  obtain ⟨trg, F', j1, j2, j3, j4⟩ := h1.shadow hcfg (F := []) (G := [[]]) ⟨by simp, by decide⟩ (by rw [hgh]; exact freshStore_sinv)
    h.ev (by rw [hf]; exact h.near) (by rw [hf]; exact h.told) (by
      unfold maxEvents at hlen
      rw [hgh]
      constructor
      · simp [freshStore]; omega
      · simp [freshStore, totalData]; omega)
  rw [hgh] at j1
  have hl : F'.length ≤ t.dfiles.length := by have := j3.1; have := j3.2; omega
  refine ⟨⟨trg, t.gh F', ⟨⟨b0, _, h0, j1⟩, ?_, by rw [j2]; exact h.near, ?_⟩, j2, ⟨(gh_len hl).symm, fun i hi => ?_⟩, rfl⟩, by rw [hf] at j4; exact j4⟩
  · intro x hx
    apply h.ev
    rw [← j2]
    exact List.mem_map_of_mem hx
  · rw [← List.length_map (f := (·.1)), j2]; exact hlen
  · exact (gh_get (Nat.le_trans j3.1 hi)).symm

/-- **C69**, sequential mode, what the index holds at any moment. -/
theorem C69_seq_run_index_partial {cfg : Option Mode} {u : Nat} {tr : List (LossEvent × Reply)} {br : Branches} {t : Store}
    (h : SeqLossRun cfg u tr br t) {k : Bytes} (hk : k.length = 8) (hnear : NearKey (specSeqRun [] (evsOf tr)) k) (c : Ctx)
    {name : Bytes} (hn : name ≠ []) (hf : c.conf.lock ≠ .frozen) :
    cmdExists c br t [name, k] = existsReply (((specSeqRun [] (evsOf tr)).get k).map Val.payload) ∧
    cmdLength c br t [name, k] = lengthReply (((specSeqRun [] (evsOf tr)).get k).map Val.payload) := by
  obtain ⟨⟨trg, s, h1, h2, h3, h4⟩, -⟩ := C69_seq_run_partial h
  have := C69_seq_index_partial h1 h3 (b := br) (t := t) (Or.inl ⟨rfl, h4⟩) hk (by rw [h2]; exact hnear) c hn hf
  rw [h2] at this
  exact this

/-- **C69**, sequential mode, what is read at any moment: let the same events happen without damage.  Where the record of an id is
    then, GET takes its answer from: the payload if it is still there, otherwise what there is instead, or an error if the file ends
    before.  If files are only cut, nothing but the payload or an error is answered.  Missing: empty payloads, and see
    `C69_seq_run_partial`. -/
theorem C69_seq_run_place_partial {cfg : Option Mode} {u : Nat} {tr : List (LossEvent × Reply)} {br : Branches} {t : Store}
    (h : SeqLossRun cfg u tr br t) :
    ∃ trg s, SeqRun cfg u trg br s ∧ trg.map (·.1) = evsOf tr ∧
      ∀ (k : Bytes) (v : Val), (specSeqRun [] (evsOf tr)).get k = some v → v.payload ≠ [] →
      ∃ (j prev : Nat) (pre post : Bytes),
        s.dfiles[j]? = some (pre ++ ((encDHdr ⟨8, v.payload.length, prev, crc32 v.payload, 0, v.time⟩ ++ (k ++ v.payload)) ++ post)) ∧
        ∀ f, t.dfiles[j]? = some f → ∀ (c : Ctx) (name : Bytes), name ≠ [] → c.conf.lock ≠ .frozen →
          cmdGet c br t [name, k] = foundReply (bytesAt f (pre.length + 26) v.payload.length) ∧
          (bytesAt f pre.length (26 + v.payload.length) =
              some (encDHdr ⟨8, v.payload.length, prev, crc32 v.payload, 0, v.time⟩ ++ (k ++ v.payload)) →
            cmdGet c br t [name, k] = .bulk v.payload ∧ cmdCheck c br t [name, k] = .int 1) ∧
          (f <+: pre ++ ((encDHdr ⟨8, v.payload.length, prev, crc32 v.payload, 0, v.time⟩ ++ (k ++ v.payload)) ++ post) →
            cmdGet c br t [name, k] =
              (if pre.length + 26 + v.payload.length ≤ f.length then .bulk v.payload else .err "Internal Error") ∧
            cmdCheck c br t [name, k] = .int (if pre.length + 26 + v.payload.length ≤ f.length then 1 else -1)) := by
  obtain ⟨⟨trg, s, h1, h2, h3, h4⟩, -⟩ := C69_seq_run_partial h
  refine ⟨trg, s, h1, h2, fun k v hk hp => ?_⟩
  rw [← h2] at hk
  obtain ⟨j, prev, pre, post, e1, e2⟩ := C69_seq_place_partial h1 hk hp
  exact ⟨j, prev, pre, post, e1, fun f hf c name hn hfz => e2 _ h3 br t (Or.inl ⟨rfl, h4⟩) f hf c name hn hfz⟩

/-! ### when SETs are as told -/

theorem upToDate_of_dataGet {s : Store} {e : Entry} {q p : Bytes} (hd : dataGet s e.offset e.length e.dataid e.id.length = some q)
    (hl : e.length = q.length) (hc : e.crc = crc32 q) (hp : p.length < 2 ^ 32) : upToDate s (some e) p = decide (q = p) := by
  rw [hl] at hd
  simp only [upToDate, compareMatching, hl, hd, Nat.mod_eq_of_lt hp, hc]
  by_cases he : q = p
  · simp [he]
  · by_cases hlen : q.length = p.length
    · have : ¬ (List.take p.length q = p) := by rw [← hlen, List.take_length]; exact he
      simp [hlen, he, this]
    · simp [hlen, he]

theorem dataGet_jump {t t1 : Store} (he : DataExt t t1) {off n i idl : Nat} {q : Bytes} (hn : 0 < n)
    (h : dataGet t off n i idl = some q) : dataGet t1 off n i idl = some q := by
  unfold dataGet at h ⊢
  cases hf : t.dfiles[i]? with
  | none => rw [hf] at h; cases h
  | some f =>
    obtain ⟨x, hx, -⟩ := he.2 i f hf
    have hn0 : ¬ n = 0 := by omega
    rw [hf] at h
    rw [hx]
    simp only [hn0, if_false] at h ⊢
    by_cases hle : off + dhdrLen + idl + n ≤ f.length
    · rw [readExact_append_left hle]; exact h
    · rw [readExact_eq_none hn (by omega)] at h; cases h

/-- **C69**, SETs in sequential mode: as long as GET answers the value of an id, whatever happened to the rest of its file and to other
    files, a SET of this id is skipped if and only if the value is set again.  So the condition of `C69_seq_run_partial` is one on
    damaged values only.  Missing: empty values (`C69_empty_refuted`). -/
theorem C69_seq_told_partial {cfg : Option Mode} {u : Nat} {tr : List (LossEvent × Reply)} {br : Branches} {t : Store}
    (h : SeqLossRun cfg u tr br t) {k : Bytes} {v : Val} (hk : (specSeqRun [] (evsOf tr)).get k = some v) (hv : v.payload ≠ [])
    (c0 : Ctx) {name : Bytes} (hn : name ≠ []) (hf : c0.conf.lock ≠ .frozen) (hget : cmdGet c0 br t [name, k] = .bulk v.payload)
    (c : Ctx) (n p : Bytes) (hp : p.length < 2 ^ 32) :
    SetAsTold (specSeqRun [] (evsOf tr)) (.cmd c .set [n, k, p]) (dsCommand c br t .set [n, k, p]).2.2 := by
  obtain ⟨⟨trg, s, h1, h2, h3, h4⟩, -⟩ := C69_seq_run_partial h
  obtain ⟨G, hG, habs, -⟩ := h1.inv
  rw [h2] at habs
  have hk' := hk
  rw [← habs, absSlots_get, Option.map_eq_some_iff] at hk'
  obtain ⟨l, hl, hlv⟩ := hk'
  obtain ⟨h8, hpos, hmem, hlive, hid, hlt⟩ := hG.slot hl
  have hr := hG.getRec hl
  have hpay : l.r.payload = v.payload := by rw [← hlv]; rfl
  have hi : ∀ u', indexGet br t u' k = some (l.sentry u') := by
    intro u'
    have : indexGet br t u' k = (slotGet G k).map (Loc.sentry u') := by
      rw [h4]; exact hG.indexGet u' k (fun _ => Or.inl hlt)
    rw [this, hl]; rfl
  have hs : InStep t := by
    have h5 := hG.paired
    have h6 := h3.len
    rw [h4]
    exact ⟨by show t.dfiles.length = _; rw [h6]; exact h5.d, h5.i, h5.same⟩
  have hcap : t.indexid + 1 < 2 ^ 32 := by
    have h5 := hs.i
    have h6 := h1.files_lt
    have h7 : s.ifiles = t.ifiles := by rw [h4]
    rw [h7] at h6
    omega
  have hlen : l.r.item.length = v.payload.length := by rw [← hpay]; exact hr.len
  have hcrc : l.r.item.crc = crc32 v.payload := by rw [← hpay]; exact hr.crc
  have hpl : 0 < v.payload.length := List.length_pos_iff.2 hv
  have hdg : dataGet t (l.sentry c.u).offset (l.sentry c.u).length (l.sentry c.u).dataid (l.sentry c.u).id.length =
      some v.payload := by
    unfold cmdGet at hget
    rw [readChecks_near hn h8 hf, getSingle, hi] at hget
    have e : dataGet t (l.sentry c0.u).offset (l.sentry c0.u).length (l.sentry c0.u).dataid (l.sentry c0.u).id.length =
        dataGet t (l.sentry c.u).offset (l.sentry c.u).length (l.sentry c.u).dataid (l.sentry c.u).id.length := rfl
    simp only [e] at hget
    generalize dataGet t (l.sentry c.u).offset (l.sentry c.u).length (l.sentry c.u).dataid (l.sentry c.u).id.length = x at hget ⊢
    cases x with
    | none => simp at hget
    | some b => simp only [Reply.bulk.injEq] at hget; rw [hget]
  have hup : ∀ t1, DataExt t t1 → upToDate t1 (some (l.sentry c.u)) p = decide (v.payload = p) := by
    intro t1 he
    refine upToDate_of_dataGet (dataGet_jump he ?_ hdg) hlen hcrc hp
    show 0 < l.r.item.length
    omega
  have hk0 : k.length ≠ 0 := by omega
  have hm : t.mode = .seq := by rw [h4]; exact hG.mode
  intro v' hv'
  rw [hk] at hv'
  injection hv' with hv'
  subst hv'
  have hrest : ∀ e : String, e ≠ "Cannot write data right now" → e ≠ "Cannot write index right now" →
      ((Reply.err e = .nil → v.payload = p) ∧ (v.payload = p → (∀ b, Reply.err e ≠ .bulk b) ∧
        Reply.err e ≠ .err "Cannot write data right now" ∧ Reply.err e ≠ .err "Cannot write index right now")) := by
    intro e e1 e2
    refine ⟨fun h => (by cases h), fun _ => ⟨fun b h => (by cases h), fun h => ?_, fun h => ?_⟩⟩
    · injection h with h; exact e1 h
    · injection h with h; exact e2 h
  simp only [dsCommand, cmdSet]
  unfold cmdSet.body
  rw [hi]
  split
  · exact hrest _ (by decide) (by decide)
  split
  · exact hrest _ (by decide) (by decide)
  split
  · exact hrest _ (by decide) (by decide)
  split
  · exact hrest _ (by decide) (by decide)
  simp only [hk0, ne_eq, not_false_eq_true, if_true, hm]
  split
  · exact hrest _ (by decide) (by decide)
  split
  · exact hrest _ (by decide) (by decide)
  rw [setHandlerSeq_eq, hup _ (jumpIfFull_ext hs hcap c.limit p.length).ext]
  split
  · exact hrest _ (by decide) (by decide)
  by_cases hpp : v.payload = p
  · simp only [hpp, decide_true, if_true]
    exact ⟨fun _ => trivial, fun _ => ⟨fun b h => (by cases h), fun h => (by cases h), fun h => (by cases h)⟩⟩
  · simp only [hpp, decide_false, Bool.false_eq_true, if_false]
    refine ⟨fun h => ?_, fun h => h.elim⟩
    rcases setWriteSeq_reply c br (jumpIfFull c.limit t p.length) p (timestampFromSet c.now [n, k, p] 3) (some (l.sentry c.u))
      with ⟨b, hb⟩ | hb | hb <;> rw [hb] at h <;> cases h

/-! ### example -/

def toldB (m : Slots) : NsEvent → Reply → Bool
  | .cmd _ .set (_ :: k :: p :: _), r =>
    match m.get k with
    | none => true
    | some v => (decide (r ≠ .nil) || decide (v.payload = p)) && decide (v.payload ≠ p) ||
        (decide (v.payload = p) && decide (r = .nil))
  | _, _ => true

theorem toldB_ok {m : Slots} {e : NsEvent} {r : Reply} (h : toldB m e r = true) : SetAsTold m e r := by
  unfold SetAsTold
  split
  · rename_i k p rest
    intro v hv
    simp only [toldB, hv, Bool.or_eq_true, Bool.and_eq_true, decide_eq_true_eq] at h
    rcases h with ⟨h1 | h1, h2⟩ | ⟨h1, h2⟩
    · exact ⟨fun h3 => absurd h3 h1, fun h3 => absurd h3 h2⟩
    · exact absurd h1 h2
    · subst h2
      exact ⟨fun _ => h1, fun _ => ⟨fun b hb => (by cases hb), fun hb => (by cases hb), fun hb => (by cases hb)⟩⟩
  · trivial

def askTold (m : Slots) : List (LossEvent × Reply) → Bool
  | [] => true
  | (.ev e, r) :: tr => toldB m e r && askTold (specSeqEvent m e).1 tr
  | (.damage .., _) :: tr => askTold m tr

theorem askTold_ok : ∀ (tr : List (LossEvent × Reply)) (m : Slots), askTold m tr = true → AsTold m tr := by
  intro tr
  induction tr with
  | nil => intro m _; trivial
  | cons x tr ih =>
    intro m h
    obtain ⟨e, r⟩ := x
    cases e with
    | ev e =>
      simp only [askTold, Bool.and_eq_true] at h
      exact ⟨toldB_ok h.1, ih _ h.2⟩
    | damage i o n => exact ih m h

theorem CleanRun.loss {cfg : Option Mode} {u : Nat} {br br' : Branches} {s s' : Store} {tr : List (NsEvent × Reply)}
    (h : CleanRun cfg u br s tr br' s') {br2 : Branches} {s2 : Store} {tr2 : List (LossEvent × Reply)}
    (h2 : SeqLossSteps cfg u br' s' tr2 br2 s2) :
    SeqLossSteps cfg u br s (tr.map (fun x => (.ev x.1, x.2)) ++ tr2) br2 s2 := by
  induction h with
  | nil => exact h2
  | cmd c d argv hu h1 hc _ ih => exact .cmd c d argv hu h1 hc (ih h2)
  | foreign h1 _ ih => exact .foreign h1 (ih h2)
  | reload h1 hc _ ih => exact .reload h1 hc (ih h2)

/-- After the commands of `exSeqLoss` the first data file loses its last three bytes, the record of id 1. -/
def exDam : Store :=
  let s := (runCmds (fun _ => []) (freshStore .seq) exSeqLoss).2.1
  s.damaged 0 ((s.dfiles.headD []).take ((s.dfiles.headD []).length - 3))

/-- Then id 2 gets another value, a new one is added, id 0 is deleted and id 1, the damaged one, is set to something else. -/
def exDamCmds : List (Ctx × DsCmd × List Bytes) :=
  [(exCtx, .get, [str "GET", toLE 8 1]), (exCtx, .set, [str "SET", toLE 8 2, str "drei"]), (exCtx, .set, [str "SET", [], str "four"]),
   (exCtx, .del, [str "DEL", toLE 8 0]), (exCtx, .set, [str "SET", toLE 8 1, str "due"])]

def exDamTrace : List (LossEvent × Reply) :=
  let x := runCmds (fun _ => []) (freshStore .seq) exSeqLoss
  (traceOf (fun _ => []) (freshStore .seq) exSeqLoss).map (fun x => (.ev x.1, x.2)) ++
    (.damage 0 (x.2.1.dfiles.headD []) ((x.2.1.dfiles.headD []).take ((x.2.1.dfiles.headD []).length - 3)), .nil) ::
    ((traceOf x.1 exDam exDamCmds).map (fun x => (.ev x.1, x.2)) ++ [])

theorem exDam_run : SeqLossRun (some .seq) 7 exDamTrace
    (runCmds (runCmds (fun _ => []) (freshStore .seq) exSeqLoss).1 exDam exDamCmds).1
    (runCmds (runCmds (fun _ => []) (freshStore .seq) exSeqLoss).1 exDam exDamCmds).2.1 where
  run := by
    refine ⟨fun _ => [], freshStore .seq, Or.inl ⟨rfl, fun _ => [], freshNs_eq (some .seq) _ 7⟩, ?_⟩
    refine CleanRun.loss (cleanCmds_run (by decide) (by decide +kernel)) ?_
    refine .damage 0 _ _ (by decide +kernel) (by decide +kernel) ?_
    have h := cleanCmds_run (u := 7) (br := (runCmds (fun _ => []) (freshStore .seq) exSeqLoss).1) (s := exDam) (l := exDamCmds)
      (by decide) (by decide +kernel)
    exact h.loss (.nil _ _)
  ev := by
    have h1 : ∀ e ∈ evsOf exDamTrace, ∃ x ∈ exSeqLoss ++ exDamCmds, e = .cmd x.1 x.2.1 x.2.2 := by
      have : evsOf exDamTrace = (exSeqLoss ++ exDamCmds).map (fun x => NsEvent.cmd x.1 x.2.1 x.2.2) := rfl
      intro e he
      rw [this] at he
      obtain ⟨x, hx, rfl⟩ := List.mem_map.1 he
      exact ⟨x, hx, rfl⟩
    intro e he
    obtain ⟨x, hx, rfl⟩ := h1 e he
    have hall : (exSeqLoss ++ exDamCmds).all okCmd = true := by decide
    exact (okCmd_ok (List.all_eq_true.1 hall x hx)).2
  near := by
    have : evsOf exDamTrace = (traceOf (fun _ => []) (freshStore .seq) (exSeqLoss ++ exDamCmds)).map (·.1) := rfl
    rw [this]
    exact nearCmds_run _ _ (by decide +kernel)
  told := askTold_ok _ _ (by decide +kernel)
  len := by decide

/-- What is read at the end: the damaged id has a value again. -/
theorem C69_seq_run_example :
    ([0, 1, 2, 5].map fun i => (dsCommand exCtx (runCmds (runCmds (fun _ => []) (freshStore .seq) exSeqLoss).1 exDam exDamCmds).1
      (runCmds (runCmds (fun _ => []) (freshStore .seq) exSeqLoss).1 exDam exDamCmds).2.1 .get [str "GET", toLE 8 i]).2.2) =
      [.nil, .bulk (str "due"), .bulk (str "drei"), .bulk (str "four")] ∧
    (runCmds (runCmds (fun _ => []) (freshStore .seq) exSeqLoss).1 exDam exDamCmds).2.2.head? = some (.err "Internal Error") := by
  decide +kernel

end Zdb
