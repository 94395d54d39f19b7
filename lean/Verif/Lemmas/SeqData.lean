/-
The data files of a sequential namespace as a log of the acknowledged writes.
-/
import Verif.Lemmas.Rebuild
import Verif.Lemmas.SeqRun
namespace Zdb

theorem appendEntry_dprev (s : Store) (io : Io) (e : Entry) : (appendEntry s io e).1.dprev = s.dprev := by
  unfold appendEntry
  dsimp only
  split <;> rfl

theorem overwriteItem_dprev (s : Store) (io : Io) (e : Entry) (fid off : Nat) :
    (overwriteItem s io e fid off).dprev = s.dprev := by
  unfold overwriteItem
  cases s.ifiles[fid]? with
  | none => rfl
  | some f =>
    simp only
    cases readExact f off itemHdr with
    | none => rfl
    | some b => simp only; split <;> rfl

theorem seqOverwrite_dprev (s : Store) (io : Io) (e : Entry) : (seqOverwrite s io e).dprev = s.dprev := by
  unfold seqOverwrite
  cases s.seqmap with
  | none => rfl
  | some m =>
    simp only
    cases seqSearch m (fromLE e.id) with
    | none => rfl
    | some x => simp only; exact overwriteItem_dprev _ _ _ _ _

theorem insertSeq_dprev (s : Store) (u : Nat) (io : Io) (r : SetReq) : (insertSeq s u io r).1.dprev = s.dprev := by
  unfold insertSeq
  have := appendEntry_dprev s io (r.entry u)
  generalize appendEntry s io (r.entry u) = x at this
  obtain ⟨a, b, c⟩ := x
  dsimp only at this ⊢
  split <;> exact this

theorem updateSeq_dprev (s : Store) (u : Nat) (io : Io) (r : SetReq) (ex : Entry) :
    (updateSeq s u io r ex).1.dprev = s.dprev := by
  unfold updateSeq
  have := appendEntry_dprev s io { ex with flags := setDeleted ex.flags }
  generalize appendEntry s io { ex with flags := setDeleted ex.flags } = x at this
  obtain ⟨a, b, c⟩ := x
  dsimp only at this ⊢
  split
  · exact (seqOverwrite_dprev _ _ _).trans this
  · exact this

theorem appendEntry_seqmap (s : Store) (io : Io) (e : Entry) : (appendEntry s io e).1.seqmap = s.seqmap := by
  unfold appendEntry
  dsimp only
  split <;> rfl

theorem overwriteItem_seqmap (s : Store) (io : Io) (e : Entry) (fid off : Nat) :
    (overwriteItem s io e fid off).seqmap = s.seqmap := by
  unfold overwriteItem
  cases s.ifiles[fid]? with
  | none => rfl
  | some f =>
    simp only
    cases readExact f off itemHdr with
    | none => rfl
    | some b => simp only; split <;> rfl

theorem seqOverwrite_seqmap (s : Store) (io : Io) (e : Entry) : (seqOverwrite s io e).seqmap = s.seqmap := by
  unfold seqOverwrite
  cases hm : s.seqmap with
  | none => exact hm
  | some m =>
    simp only
    cases seqSearch m (fromLE e.id) with
    | none => exact hm
    | some x => simp only; rw [overwriteItem_seqmap]; exact hm

theorem insertSeq_seqmap (s : Store) (u : Nat) (io : Io) (r : SetReq) : (insertSeq s u io r).1.seqmap = s.seqmap := by
  unfold insertSeq
  have := appendEntry_seqmap s io (r.entry u)
  generalize appendEntry s io (r.entry u) = x at this
  obtain ⟨a, b, c⟩ := x
  dsimp only at this ⊢
  split <;> exact this

theorem updateSeq_seqmap (s : Store) (u : Nat) (io : Io) (r : SetReq) (ex : Entry) :
    (updateSeq s u io r ex).1.seqmap = s.seqmap := by
  unfold updateSeq
  have := appendEntry_seqmap s io { ex with flags := setDeleted ex.flags }
  generalize appendEntry s io { ex with flags := setDeleted ex.flags } = x at this
  obtain ⟨a, b, c⟩ := x
  dsimp only at this ⊢
  split
  · exact (seqOverwrite_seqmap _ _ _).trans this
  · exact this

theorem deleteDisk_seqmap (s : Store) (io : Io) (e : Entry) : (deleteDisk s io e).1.seqmap = s.seqmap := by
  unfold deleteDisk
  dsimp only
  repeat' split
  all_goals rfl

theorem indexDelete_seqmap (br : Branches) (s : Store) (u : Nat) (io : Io) (e : Entry) :
    (indexDelete br s u io e).2.1.seqmap = s.seqmap := by
  unfold indexDelete
  have := deleteDisk_seqmap s io e
  generalize deleteDisk s io e = x at this
  obtain ⟨a, b⟩ := x
  dsimp only at this ⊢
  repeat' split
  all_goals exact this

/-! ### the writes as steps on the slots -/

/-- A write of the log, as a step on the slots. -/
def Write.stepSeq (m : Slots) (w : Write) : Option Slots :=
  match w.payload with
  | none => if (m.get w.id).isSome then some (m.del w.id) else none
  | some p =>
    match m.get w.id with
    | some v => some (m.update w.id v p w.time)
    | none => if w.id = toLE 8 m.length then some (m.push p w.time) else none

def replaySlots : Slots → List Write → Option Slots
  | m, [] => some m
  | m, w :: ws => (w.stepSeq m).bind (fun m => replaySlots m ws)

theorem replaySlots_append (m : Slots) (a b : List Write) :
    replaySlots m (a ++ b) = (replaySlots m a).bind (fun m => replaySlots m b) := by
  induction a generalizing m with
  | nil => rfl
  | cons r a ih =>
    simp only [List.cons_append, replaySlots]
    cases r.stepSeq m with
    | none => rfl
    | some m' => exact ih m'

/-- Number of writes that store a payload. -/
def setCount (W : List Write) : Nat := (W.filter (fun w => w.payload.isSome)).length

theorem setCount_append (a b : List Write) : setCount (a ++ b) = setCount a + setCount b := by simp [setCount]

theorem Write.stepSeq_length {m m' : Slots} {w : Write} (h : w.stepSeq m = some m') :
    m'.length = m.length + (if w.payload.isSome then 1 else 0) := by
  unfold Write.stepSeq at h
  cases hp : w.payload with
  | none =>
    rw [hp] at h
    simp only at h
    split at h
    · injection h with h; rw [← h]; simp [Slots.del]
    · cases h
  | some p =>
    rw [hp] at h
    simp only at h
    cases hg : m.get w.id with
    | some v => rw [hg] at h; injection h with h; rw [← h]; simp [Slots.update]
    | none =>
      rw [hg] at h
      simp only at h
      split at h
      · injection h with h; rw [← h]; simp [Slots.push]
      · cases h

theorem replaySlots_length {m m' : Slots} {W : List Write} (h : replaySlots m W = some m') :
    m'.length = m.length + setCount W := by
  induction W generalizing m with
  | nil => injection h with h; rw [← h]; simp [setCount]
  | cons w W ih =>
    simp only [replaySlots] at h
    cases hs : w.stepSeq m with
    | none => rw [hs] at h; cases h
    | some m1 =>
      rw [hs] at h
      have h1 := ih h
      have h2 := Write.stepSeq_length hs
      have h3 : setCount (w :: W) = (if w.payload.isSome then 1 else 0) + setCount W := by
        unfold setCount
        cases hp : w.payload <;> simp [hp]; omega
      omega

theorem Slots.get_next (m : Slots) (hm : m.length < 2 ^ 64) : m.get (toLE 8 m.length) = none := by
  have : fromLE (toLE 8 m.length) = m.length := by
    rw [fromLE_toLE]; exact Nat.mod_eq_of_lt (by simpa using hm)
  simp [Slots.get, seqPos, this]

theorem replaySlots_set {conf : NsConf} {w st : Bool} {m : Slots} (hm : m.length < 2 ^ 64) (k p : Bytes) (t : Nat) :
    replaySlots m (ackSet p t (specSeqSet conf w st m k p t).2) = some (specSeqSet conf w st m k p t).1 := by
  unfold specSeqSet
  by_cases h1 : k.length > 255
  · rw [if_pos h1]; rfl
  rw [if_neg h1]
  cases writeRefusal conf w with
  | some msg => rfl
  | none =>
    simp only
    by_cases h2 : ((m.get k).isSome && conf.worm) = true
    · rw [if_pos h2]; rfl
    rw [if_neg h2]
    by_cases h3 : conf.maxsize ≠ 0 ∧ m.total - slotSize (m.get k) + p.length > conf.maxsize
    · rw [if_pos h3]; rfl
    rw [if_neg h3]
    cases hg : m.get k with
    | none =>
      simp only
      by_cases h4 : k ≠ []
      · rw [if_pos h4]; rfl
      rw [if_neg h4]
      cases st with
      | false => rfl
      | true =>
        simp only [Bool.not_true, Bool.false_eq_true, if_false, ackSet, replaySlots, Write.stepSeq, Slots.get_next m hm, if_true,
          Option.bind_some]
    | some v =>
      simp only
      by_cases h4 : v.payload = p
      · rw [if_pos h4]; rfl
      rw [if_neg h4]
      cases st with
      | false => rfl
      | true =>
        simp only [Bool.not_true, Bool.false_eq_true, if_false, ackSet, replaySlots, Write.stepSeq, hg, Option.bind_some]

theorem replaySlots_del {conf : NsConf} {w st : Bool} {m : Slots} (k : Bytes) (t : Nat) :
    replaySlots m (ackDel k t (specSeqDel conf w st m k).2) = some (specSeqDel conf w st m k).1 := by
  unfold specSeqDel
  by_cases h1 : k.length > 255
  · rw [if_pos h1]; rfl
  rw [if_neg h1]
  cases writeRefusal conf w with
  | some msg => rfl
  | none =>
    simp only
    cases hg : m.get k with
    | none => rfl
    | some v =>
      simp only [Option.isNone_some, Bool.false_eq_true, if_false]
      by_cases h2 : conf.worm = true
      · rw [if_pos h2]; rfl
      rw [if_neg h2]
      cases st with
      | false => rfl
      | true =>
        simp only [Bool.not_true, Bool.false_eq_true, if_false, ackDel, Reply.ok, replaySlots, Write.stepSeq, hg, Option.isSome_some,
          if_true, Option.bind_some]

/-- The acknowledged writes of a command are its effect on the slots. -/
theorem replaySlots_cmd {c : Ctx} {m : Slots} (hm : m.length < 2 ^ 64) (d : DsCmd) (argv : List Bytes) (ha : ArgsOK argv) {r : Reply}
    (hr : ∀ r', (specSeqCmd c m d argv).2 = some r' → r = r') :
    replaySlots m (acked (.cmd c d argv, r)) = some (specSeqCmd c m d argv).1 := by
  obtain ⟨n, rest, rfl, hne⟩ := ha.name
  cases d with
  | set =>
    simp only [specSeqCmd] at hr ⊢
    match rest with
    | [] => rw [hr _ rfl]; rfl
    | [_] => rw [hr _ rfl]; rfl
    | [k, p] =>
      rw [hr _ rfl, acked_set]
      exact replaySlots_set hm k p _
    | [k, p, t] =>
      by_cases had : c.admin = true
      · simp only [had, if_true] at hr ⊢
        rw [hr _ rfl, acked_set]
        exact replaySlots_set hm k p _
      · simp only [had] at hr ⊢
        rw [hr _ rfl]; rfl
    | _ :: _ :: _ :: _ :: _ => rw [hr _ rfl]; rfl
  | del =>
    simp only [specSeqCmd] at hr ⊢
    match rest with
    | [] => rw [hr _ rfl]; rfl
    | [k] =>
      by_cases hk : k = []
      · simp only [hk, if_true] at hr ⊢
        rw [hr _ rfl]; rfl
      · simp only [hk, if_false] at hr ⊢
        rw [hr _ rfl, acked_del]
        exact replaySlots_del k _
    | [k, t] =>
      by_cases had : c.admin = true
      · simp only [had, if_true] at hr ⊢
        rw [hr _ rfl, acked_del]
        exact replaySlots_del k _
      · simp only [had] at hr ⊢
        rw [hr _ rfl]; rfl
    | _ :: _ :: _ :: _ => rw [hr _ rfl]; rfl
  | _ =>
    rw [acked_other (by simp) (by simp)]
    simp only [specSeqCmd]
    first
    | rfl
    | (match rest with
       | [] => rfl
       | [_] => rfl
       | _ :: _ :: _ => rfl)

theorem DLog.fileLen_pos {s : Store} {D : List (List DRec)} {W : List Write} (h : DLog s D W) {i : Nat}
    (hi : i < D.length) : fileLen s.dfiles i ≠ 0 := by
  obtain ⟨g, hg⟩ : ∃ g, D[i]? = some g := ⟨_, List.getElem?_eq_getElem hi⟩
  rw [fileLen, h.files, List.getElem?_mapIdx, hg]
  simp [encDFile_length]

/-! ### the log with the map of the files -/

/-- Number of stored payloads in a file. -/
def dcount (g : List DRec) : Nat := (g.filter (fun r => !r.del)).length

/-- First id and number of each file, from the records of the data files. -/
def dstarts (i n : Nat) : List (List DRec) → List (Nat × Nat)
  | [] => []
  | g :: D => (n, i) :: dstarts (i + 1) (n + dcount g) D

theorem dstarts_append (i n : Nat) (D E : List (List DRec)) :
    dstarts i n (D ++ E) = dstarts i n D ++ dstarts (i + D.length) (n + (D.map dcount).sum) E := by
  induction D generalizing i n with
  | nil => simp [dstarts]
  | cons g D ih =>
    simp only [List.cons_append, dstarts, ih, List.length_cons, List.map_cons, List.sum_cons]
    rw [show i + 1 + D.length = i + (D.length + 1) by omega, Nat.add_assoc]

theorem dstarts_length (i n : Nat) (D : List (List DRec)) : (dstarts i n D).length = D.length := by
  induction D generalizing i n with
  | nil => rfl
  | cons g D ih => simp [dstarts, ih]

theorem dcount_sum (D : List (List DRec)) : (D.map dcount).sum = setCount (D.flatten.map DRec.what) := by
  induction D with
  | nil => rfl
  | cons g D ih =>
    rw [List.flatten_cons, List.map_append, setCount_append, List.map_cons, List.sum_cons, ih]
    congr 1
    unfold dcount setCount
    rw [List.filter_map, List.length_map]
    congr 1
    apply List.filter_congr
    intro r _
    simp only [Function.comp, DRec.what]
    cases r.del <;> rfl

/-- The log of a sequential namespace: also, every stored payload begins below 2 GiB, and the map of the files tells how many
    payloads the files have. -/
structure SLog (s : Store) (D : List (List DRec)) (W : List Write) : Prop where
  log : DLog s D W
  room : ∀ g ∈ D, DRoom g
  starts : ∃ pre, s.seqmap = some (pre ++ dstarts 0 0 D) ∧ (pre = [] ∨ pre = [(0, 0)])

theorem SLog.congr {s t : Store} {D : List (List DRec)} {W : List Write} (h : SLog s D W)
    (h1 : t.dfiles = s.dfiles) (h2 : t.dprev = s.dprev) (h3 : t.seqmap = s.seqmap) : SLog t D W :=
  ⟨h.log.congr h1 h2, h.room, by rw [h3]; exact h.starts⟩

theorem SLog.append {s t : Store} {D : List (List DRec)} {W : List Write} (h : SLog s D W)
    (hn : s.dataid + 1 = D.length) {r : DRec} (hw : r.WF) (hp : r.prev = s.dprev % 2 ^ 32)
    (hl : r.payload.length ≤ 2 ^ 23) (hfl : r.del = false → fileLen s.dfiles s.dataid ≤ 2 ^ 31)
    (h1 : t.dfiles = appendFile s.dfiles s.dataid r.enc)
    (h2 : t.dprev = fileLen s.dfiles s.dataid) (h3 : t.seqmap = s.seqmap) :
    SLog t (dAppend D r) (W ++ [r.what]) := by
  refine ⟨h.log.append hn hw hp hl h1 h2, ?_, ?_⟩
  · have hne : D ≠ [] := by intro h0; rw [h0] at hn; simp at hn
    obtain ⟨D', g, rfl⟩ : ∃ D' g, D = D' ++ [g] := ⟨D.dropLast, D.getLast hne, (List.dropLast_concat_getLast hne).symm⟩
    have hn' : s.dataid = D'.length := by simp at hn; omega
    have hfle : fileLen s.dfiles s.dataid = 28 + dsize g := by
      rw [h.log.files, mapIdx_concat', hn', fileLen]
      simp [encDFile_length]
    rw [dAppend_eq]
    intro x hx
    rcases List.mem_append.1 hx with hx | hx
    · exact h.room x (List.mem_append_left _ hx)
    · rw [List.mem_singleton.1 hx]
      intro a y b hab hd
      rcases List.eq_nil_or_concat b with rfl | ⟨b', w, rfl⟩
      · obtain ⟨e1, e2⟩ := List.append_inj' hab rfl
        injection e2 with e2
        subst e1; subst e2
        rw [← hfle]; exact hfl hd
      · have e : g ++ [r] = (a ++ y :: b') ++ [w] := by rw [hab]; simp
        exact h.room g (by simp) a y b' (List.append_inj' e rfl).1 hd
  · have hne : D ≠ [] := by intro h0; rw [h0] at hn; simp at hn
    obtain ⟨D', g, rfl⟩ : ∃ D' g, D = D' ++ [g] := ⟨D.dropLast, D.getLast hne, (List.dropLast_concat_getLast hne).symm⟩
    rw [h3, dAppend_eq]
    obtain ⟨pre, p1, p2⟩ := h.starts
    refine ⟨pre, ?_, p2⟩
    rw [p1, dstarts_append, dstarts_append]
    simp [dstarts]

theorem SLog.jump {s t : Store} {D : List (List DRec)} {W : List Write} (h : SLog s D W)
    {n : Nat} (hn : n = D.length) (h1 : t.dfiles = s.dfiles ++ [encDFHeader (freshDFHeader n)])
    (h2 : t.seqmap = s.seqmap.map (· ++ [(s.nextentry, n)])) (h3 : s.nextentry = setCount W) :
    SLog t (D ++ [[]]) W := by
  refine ⟨h.log.jump hn h1, ?_, ?_⟩
  · intro x hx
    rcases List.mem_append.1 hx with hx | hx
    · exact h.room x hx
    · rw [List.mem_singleton.1 hx]
      intro a y b hab
      simp at hab
  · obtain ⟨pre, p1, p2⟩ := h.starts
    refine ⟨pre, ?_, p2⟩
    rw [h2, p1, h3, dstarts_append, ← h.log.writes, ← dcount_sum, hn]
    simp [dstarts]

theorem setHandlerSeq_log {c : Ctx} {br : Branches} {s : Store} {D : List (List DRec)} {W : List Write}
    (hD : SLog s D W) (hn : s.dataid + 1 = D.length) (hd : c.io.dhdr = none) (hpy : c.io.dpay = none) (k p : Bytes) (ts : Nat)
    (ex : Option Entry) (hid : (seqIdOf s ex).length = 8) (hp : p.length ≤ 2 ^ 23) (hts : ts < 2 ^ 32)
    (hfl : fileLen s.dfiles s.dataid ≤ 2 ^ 31)
    (hok : (setHandlerSeq c br s k p ts ex).2.2 ≠ .err "Cannot write index right now") :
    ∃ D', SLog (setHandlerSeq c br s k p ts ex).2.1 D' (W ++ ackSet p ts (setHandlerSeq c br s k p ts ex).2.2) := by
  have hD0 : SLog s D (W ++ []) := by rw [List.append_nil]; exact hD
  have hoff := hD.log.fileLen_pos (i := s.dataid) (by omega)
  unfold setHandlerSeq at hok ⊢
  by_cases h1 : k.length ≠ 0 ∧ ex.isNone = true
  · rw [if_pos h1]; exact ⟨D, hD0⟩
  rw [if_neg h1] at hok ⊢
  simp only at hok ⊢
  by_cases h2 : upToDate s ex p = true
  · rw [if_pos h2]; exact ⟨D, hD0⟩
  rw [if_neg h2] at hok ⊢
  have hdi := dataInsert_good (s := s) hd hpy ⟨seqIdOf s ex, p, s.dprev % 2 ^ 32, false, ts⟩ rfl
  simp only [Bool.false_eq_true, if_false] at hdi
  simp only [hdi, if_neg hoff] at hok ⊢
  have happ := fun (t : Store) => hD.append (t := t) hn (r := ⟨seqIdOf s ex, p, s.dprev % 2 ^ 32, false, ts⟩)
    ⟨by simp only; omega, by simp only; omega, by simp only; omega, Nat.mod_lt _ (by decide), hts, by simp⟩ rfl hp (fun _ => hfl)
  cases ex with
  | none =>
    simp only at hok ⊢
    split at hok
    · rename_i h3
      rw [if_pos h3]
      exact ⟨_, happ _ (insertSeq_same _ _ _ _).df (insertSeq_dprev _ _ _ _) (insertSeq_seqmap _ _ _ _)⟩
    · exact absurd rfl hok
  | some e =>
    simp only at hok ⊢
    split at hok
    · rename_i h3
      rw [if_pos h3]
      exact ⟨_, happ _ (updateSeq_same _ _ _ _ _).df (updateSeq_dprev _ _ _ _ _) (updateSeq_seqmap _ _ _ _ _)⟩
    · exact absurd rfl hok

theorem writeRefusal_ne {conf : NsConf} {w : Bool} {msg : String} (h : writeRefusal conf w = some msg) :
    msg ≠ "Cannot write index right now" ∧ msg ≠ "Cannot delete key (index)" := by
  unfold writeRefusal at h
  repeat' split at h
  all_goals first | (cases h; done) | (injection h with h; subst h; decide)

theorem specSeqSet_ne (conf : NsConf) (w st : Bool) (m : Slots) (k p : Bytes) (t : Nat) :
    (specSeqSet conf w st m k p t).2 ≠ .err "Cannot write index right now" := by
  unfold specSeqSet
  split
  · simp
  · split
    · rename_i msg hm
      have := (writeRefusal_ne hm).1
      simpa using this
    · repeat' split
      all_goals simp

theorem specSeqDel_ne (conf : NsConf) (w st : Bool) (m : Slots) (k : Bytes) :
    (specSeqDel conf w st m k).2 ≠ .err "Cannot delete key (index)" := by
  unfold specSeqDel
  split
  · simp
  · split
    · rename_i msg hm
      have := (writeRefusal_ne hm).2
      simpa using this
    · repeat' split
      all_goals simp [Reply.ok]

theorem SInv.dlen_log {s : Store} {G : Log} (h : SInv s G) {D : List (List DRec)} {W : List Write}
    (hD : SLog s D W) : s.dataid + 1 = D.length := by
  rw [← hD.log.length, h.dlen, h.did]; exact h.iid

theorem SInv.jump_log {s : Store} {G : Log} (h : SInv s G) (hcap : s.ifiles.length < 2 ^ 32) {D : List (List DRec)}
    {W : List Write} (hD : SLog s D W) (hrep : replaySlots [] W = some (absSlots G)) : SLog (Zdb.jump s) (D ++ [[]]) W := by
  have hlen := h.irep.length
  have hc := h.toCore.jump (by rw [h.mode]; rfl) (by omega)
  have hid : (s.indexid + 1) % 2 ^ 32 = G.length := by rw [h.iid, Nat.mod_eq_of_lt (by omega)]
  refine hD.jump (by rw [← hD.log.length, h.dlen]) hc.2.1 (by rw [(jump_seqmap s).1, hid]) ?_
  rw [h.next, ← absSlots_length, replaySlots_length hrep]
  simp

theorem seqSet_body_log {c : Ctx} {br : Branches} {s : Store} {G : Log} (h : SInv s G) {D : List (List DRec)}
    {W : List Write} (hD : SLog s D W) (hrep : replaySlots [] W = some (absSlots G)) (hlim : c.limit ≤ 2 ^ 31)
    (hd : c.io.dhdr = none) (hpy : c.io.dpay = none)
    (hcap : s.ifiles.length < 2 ^ 32) (argv : List Bytes) (k p : Bytes) (hp : p.length ≤ 2 ^ 23) (hn : Near G k)
    (hok : (cmdSet.body c br s argv k p).2.2 ≠ .err "Cannot write index right now") :
    ∃ D', SLog (cmdSet.body c br s argv k p).2.1 D' (W ++ ackSet p (timestampFromSet c.now argv 3) (cmdSet.body c br s argv k p).2.2) := by
  have hD0 : SLog s D (W ++ []) := by rw [List.append_nil]; exact hD
  unfold cmdSet.body at hok ⊢
  by_cases hk : k.length > 255
  · simp only [if_pos hk]; exact ⟨D, hD0⟩
  simp only [if_neg hk] at hok ⊢
  rw [lock_cases] at hok ⊢
  cases hr : writeRefusal c.conf c.writable with
  | some msg => exact ⟨D, hD0⟩
  | none =>
    rw [hr] at hok
    simp only at hok ⊢
    have hentry : (if k.length ≠ 0 then indexGet br s c.u k else none) =
        (slotGet G k).map (Loc.sentry c.u) := by
      by_cases h0 : k.length = 0
      · rw [List.length_eq_zero_iff.1 h0]; simp [slotGet_nil]
      · rw [if_pos h0, h.indexGet c.u k hn]
    rw [hentry] at hok ⊢
    by_cases hworm : (((slotGet G k).map (Loc.sentry c.u)).isSome && c.conf.worm) = true
    · rw [if_pos hworm]; exact ⟨D, hD0⟩
    rw [if_neg hworm] at hok ⊢
    by_cases hover : overQuota c.conf s.datasize p.length (floatingOf ((slotGet G k).map (Loc.sentry c.u))) = true
    · rw [if_pos hover]; exact ⟨D, hD0⟩
    rw [if_neg hover] at hok ⊢
    simp only [h.mode] at hok ⊢
    have hid : ∀ t : Store, (seqIdOf t ((slotGet G k).map (Loc.sentry c.u))).length = 8 := by
      intro t
      cases hg : slotGet G k with
      | none => simp [seqIdOf]
      | some l =>
        obtain ⟨hk8, -, -, -, hlid, -⟩ := h.slot hg
        have e : (l.sentry c.u).id = k := hlid
        simp [seqIdOf, e, hk8]
    have hts := timestampFromSet_lt c.now argv 3
    have hjn : (∃ D1, SLog (jumpIfFull c.limit s p.length) D1 W ∧ (jumpIfFull c.limit s p.length).dataid + 1 = D1.length ∧
        fileLen (jumpIfFull c.limit s p.length).dfiles (jumpIfFull c.limit s p.length).dataid ≤ 2 ^ 31) := by
      unfold jumpIfFull
      split
      · have hlen := h.irep.length
        have hc := h.toCore.jump (by rw [h.mode]; rfl) (by omega)
        refine ⟨_, h.jump_log hcap hD hrep, ?_, ?_⟩
        rotate_left
        · rw [hc.1.did, hc.2.2.2, hc.2.1, Zdb.fileLen, List.getElem?_append_right (by rw [h.dlen]; exact Nat.le_refl _), h.dlen]
          simp
        have := h.dlen_log hD
        have := h.did; have := h.iid
        rw [hc.1.did, hc.2.2.2]; simp; omega
      · exact ⟨D, hD, h.dlen_log hD, by omega⟩
    obtain ⟨D1, hD1, hn1, hfl1⟩ := hjn
    exact setHandlerSeq_log hD1 hn1 hd hpy k p _ _ (hid _) hp hts hfl1 hok

theorem seqDel_body_log {c : Ctx} {br : Branches} {s : Store} {G : Log} (h : SInv s G) {D : List (List DRec)}
    {W : List Write} (hD : SLog s D W) (hd : c.io.dhdr = none) (hpy : c.io.dpay = none)
    (argv : List Bytes) (k : Bytes) (hn : Near G k)
    (hok : (cmdDel.body c br s argv k).2.2 ≠ .err "Cannot delete key (index)") :
    ∃ D', SLog (cmdDel.body c br s argv k).2.1 D' (W ++ ackDel k (timestampFromSet c.now argv 2) (cmdDel.body c br s argv k).2.2) := by
  have hD0 : SLog s D (W ++ []) := by rw [List.append_nil]; exact hD
  unfold cmdDel.body at hok ⊢
  by_cases hk : k.length > 255
  · simp only [if_pos hk]; exact ⟨D, hD0⟩
  simp only [if_neg hk] at hok ⊢
  rw [lock_cases] at hok ⊢
  cases hr : writeRefusal c.conf c.writable with
  | some msg => exact ⟨D, hD0⟩
  | none =>
    rw [hr] at hok
    simp only at hok ⊢
    rw [h.indexGet c.u k hn] at hok ⊢
    cases hg : slotGet G k with
    | none => exact ⟨D, hD0⟩
    | some l =>
      rw [hg] at hok
      simp only [Option.map_some] at hok ⊢
      by_cases hw : c.conf.worm = true
      · rw [if_pos hw]; exact ⟨D, hD0⟩
      rw [if_neg hw] at hok ⊢
      obtain ⟨hk8, -, -, -, hlid, -⟩ := h.slot hg
      have e : (l.sentry c.u).id = k := hlid
      have hdi := dataInsert_good (s := s) hd hpy ⟨(l.sentry c.u).id, [], s.dprev % 2 ^ 32, true, timestampFromSet c.now argv 2⟩ rfl
      simp only [if_true] at hdi
      have hoff := hD.log.fileLen_pos (i := s.dataid) (by have := h.dlen_log hD; omega)
      simp only [hdi, if_neg hoff] at hok ⊢
      have happ := fun (t : Store) => hD.append (t := t) (h.dlen_log hD)
        (r := ⟨(l.sentry c.u).id, [], s.dprev % 2 ^ 32, true, timestampFromSet c.now argv 2⟩)
        ⟨by simp only [e]; omega, by simp only [e]; omega, by simp, Nat.mod_lt _ (by decide), timestampFromSet_lt _ _ _, fun _ => rfl⟩ rfl (by simp) (by simp)
      have hwhat : DRec.what ⟨(l.sentry c.u).id, [], s.dprev % 2 ^ 32, true, timestampFromSet c.now argv 2⟩ = ⟨k, none, timestampFromSet c.now argv 2⟩ := by
        simp only [DRec.what, if_true, e]
      rw [hwhat] at happ
      split at hok
      · rename_i h3
        rw [if_pos h3]
        exact ⟨_, happ _ (indexDelete_same _ _ _ _ _).df (indexDelete_dprev _ _ _ _ _) (indexDelete_seqmap _ _ _ _ _)⟩
      · exact absurd rfl hok

theorem seqCommand_log {c : Ctx} {br : Branches} {s : Store} {G : Log} (h : SInv s G) {D : List (List DRec)}
    {W : List Write} (hD : SLog s D W) (hrep : replaySlots [] W = some (absSlots G)) (hc : CtxOK c) (hd : c.io.dhdr = none) (hpy : c.io.dpay = none)
    (d : DsCmd) (argv : List Bytes) (ha : ArgsOK argv) (hroom : Room s.ifiles.length (totalData s) 1)
    (hn : NearEvent (absSlots G) (.cmd c d argv)) (hclean : CleanStep s (dsCommand c br s d argv).2.1) :
    ∃ D', SLog (dsCommand c br s d argv).2.1 D' (W ++ acked (.cmd c d argv, (dsCommand c br s d argv).2.2)) := by
  have hcap : s.ifiles.length < 2 ^ 32 := by have := hroom.1; omega
  have htot : totalData s < 2 ^ 63 := by have := hroom.2; omega
  have none1 : ∀ {t : Store} (d : DsCmd) (r : Reply), d ≠ .set → d ≠ .del → t.dfiles = s.dfiles → t.dprev = s.dprev →
      t.seqmap = s.seqmap →
      ∃ D', SLog t D' (W ++ acked (.cmd c d argv, r)) := by
    intro t d r h1 h2 h3 h4 h5
    rw [acked_other h1 h2, List.append_nil]
    exact ⟨D, hD.congr h3 h4 h5⟩
  have refuse : ∀ (e : NsEvent) (m : String), ∃ D', SLog s D' (W ++ acked (e, .err m)) := by
    intro e m
    rw [acked_err, List.append_nil]
    exact ⟨D, hD⟩
  obtain ⟨n, rest, rfl, hne⟩ := ha.name
  cases d with
  | set =>
    have key : ∀ k p, rest[0]? = some k → p ∈ n :: rest → CleanStep s (cmdSet.body c br s (n :: rest) k p).2.1 →
        ∃ D', SLog (cmdSet.body c br s (n :: rest) k p).2.1 D' (W ++ ackSet p (timestampFromSet c.now (n :: rest) 3) (cmdSet.body c br s (n :: rest) k p).2.2) := by
      intro k p hk hp hcl
      have hl := ha.size p hp
      have hnk := near_iff.1 (hn k (by simpa using hk))
      obtain ⟨G', -, -, h2⟩ := seqSet_body_spec br h hc.iapp hc.iover hc.limit hcap htot hc.quota (n :: rest) k p
        (by omega) hnk hcl
      rw [Prod.ext_iff] at h2
      exact seqSet_body_log h hD hrep hc.limit hd hpy hcap (n :: rest) k p hl hnk (by
        have := h2.2
        simp only at this
        rw [this]; exact specSeqSet_ne _ _ _ _ _ _ _)
    unfold dsCommand cmdSet at hclean ⊢
    match rest with
    | [] => exact refuse _ _
    | [_] => exact refuse _ _
    | [k, p] => rw [acked_set]; exact key k p rfl (by simp) hclean
    | [k, p, t] =>
      rw [acked_set]
      by_cases had : c.admin = true
      · simp only [had, if_true] at hclean ⊢
        exact key k p rfl (by simp) hclean
      · simp only [had]
        have := refuse (.cmd c .set [n, k, p, t]) "Permission denied"
        rw [acked_set] at this
        exact this
    | _ :: _ :: _ :: _ :: _ => exact refuse _ _
  | del =>
    have key : ∀ k, rest[0]? = some k → ∃ D', SLog (cmdDel.body c br s (n :: rest) k).2.1 D'
        (W ++ ackDel k (timestampFromSet c.now (n :: rest) 2) (cmdDel.body c br s (n :: rest) k).2.2) := by
      intro k hk
      have hnk := near_iff.1 (hn k (by simpa using hk))
      obtain ⟨G', -, -, h2⟩ := seqDel_body_spec br h hc.iflag (n :: rest) k hnk
      rw [Prod.ext_iff] at h2
      exact seqDel_body_log h hD hd hpy (n :: rest) k hnk (by
        have := h2.2
        simp only at this
        rw [this]; exact specSeqDel_ne _ _ _ _ _)
    unfold dsCommand cmdDel
    match rest with
    | [] => exact refuse _ _
    | [k] =>
      by_cases hk : k = []
      · subst hk
        simp only [argsValidate, errArg, List.length_cons, List.length_nil, List.any_cons, List.isEmpty_nil, if_true]
        simp only [Bool.true_or, Bool.or_true, ne_eq, not_true_eq_false, if_false, if_true]
        exact refuse _ _
      · have : argsValidate [n, k] 2 = none := by simp [argsValidate, hk, hne]
        simp only [this]
        rw [acked_del]
        exact key k rfl
    | [k, t] =>
      rw [acked_del]
      by_cases had : c.admin = true
      · simp only [had, if_true]
        exact key k rfl
      · simp only [had]
        have := refuse (.cmd c .del [n, k, t]) "Permission denied"
        rw [acked_del] at this
        exact this
    | k :: t :: x :: xs =>
      have : argsValidate (n :: k :: t :: x :: xs) 2 = some errArgs := by simp [argsValidate]
      simp only [this]
      exact refuse _ _
  | nsjump =>
    simp only [dsCommand, cmdNsjump]
    rw [acked_other (by simp) (by simp), List.append_nil]
    by_cases had : c.admin = true
    · simp only [had, if_true]
      exact ⟨_, h.jump_log hcap hD hrep⟩
    · simp only [had]
      exact ⟨D, hD⟩
  | index =>
    simp only [dsCommand]
    rcases cmdIndex_cases c s (n :: rest) with h' | h' <;> rw [h'] <;> exact none1 _ _ (by simp) (by simp) rfl rfl rfl
  | _ => exact none1 _ _ (by simp) (by simp) rfl rfl rfl

theorem startsFrom_length (i n : Nat) (G : Log) : (startsFrom i n G).length = G.length := by
  induction G generalizing i n with
  | nil => rfl
  | cons g G ih => simp [startsFrom, ih]

/-- The items of the index files are as many as the payloads of the data files. -/
theorem SInv.starts_eq {s : Store} {G : Log} (h : SInv s G) {D : List (List DRec)} {W : List Write} (hD : SLog s D W) :
    startsFrom 0 0 G = dstarts 0 0 D := by
  obtain ⟨p, a1, a2⟩ := h.map
  obtain ⟨q, b1, b2⟩ := hD.starts
  rw [a1, Option.some.injEq] at b1
  have hl : (startsFrom 0 0 G).length = (dstarts 0 0 D).length := by
    have e1 : (startsFrom 0 0 G).length = G.length := by
      exact startsFrom_length 0 0 G
    rw [e1, dstarts_length, ← hD.log.length, h.dlen]
  exact (List.append_inj' b1 hl).2

theorem seqRun_log {cfg : Option Mode} (hcfg : cfg = none ∨ cfg = some .seq) {u : Nat} {br br' : Branches}
    {s s' : Store} {tr : List (NsEvent × Reply)} (hr : CleanRun cfg u br s tr br' s') {G : Log}
    (h : SInv s G) {D : List (List DRec)} {W : List Write} (hD : SLog s D W)
    (hrep : replaySlots [] W = some (absSlots G)) (hev : ∀ x ∈ tr, EvOK x.1) (hdt : ∀ x ∈ tr, WholeData x.1) (hnear : NearRun (absSlots G) (tr.map (·.1)))
    {n : Nat} (hroom : Room s.ifiles.length (totalData s) (tr.length + n)) :
    ∃ G' D', SInv s' G' ∧ SLog s' D' (W ++ tr.flatMap acked) ∧ replaySlots [] (W ++ tr.flatMap acked) = some (absSlots G') ∧
      Room s'.ifiles.length (totalData s') n ∧ absSlots G' = specSeqRun (absSlots G) (tr.map (·.1)) := by
  induction hr generalizing G D W with
  | nil br s => exact ⟨G, D, h, by simpa using hD, by simpa using hrep, hroom.mono (by simp), rfl⟩
  | @cmd c d argv br br1 br2 s s1 s2 r tr hu h1 hcl h2 ih =>
    subst hu
    obtain ⟨hc, ha⟩ := hev _ (List.mem_cons_self ..)
    obtain ⟨hd1, hd2⟩ : c.io.dhdr = none ∧ c.io.dpay = none := hdt _ (List.mem_cons_self ..)
    have hrm := hroom.mono (m := 1) (by simp only [List.length_cons]; omega)
    have hcl' : CleanStep s (dsCommand c br s d argv).2.1 := by rw [h1]; exact hcl
    obtain ⟨G1, i0, i1, i2, i3⟩ := h.command (br := br) hc d argv ha hrm hnear.1 hcl'
    obtain ⟨D1, hD1⟩ := seqCommand_log h hD hrep hc hd1 hd2 d argv ha hrm hnear.1 hcl'
    have hg := dsCommand_grows c br s d argv (2 ^ 23) ha.size
    rw [h1] at i1 i3 hg hD1
    have hnear2 := hnear.2
    simp only [specSeqEvent] at hnear2
    rw [← i2] at hnear2
    have hrep1 : replaySlots [] (W ++ acked (.cmd c d argv, r)) = some (absSlots G1) := by
      rw [replaySlots_append, hrep, i2]
      refine replaySlots_cmd ?_ d argv ha i3
      have h1 := h.few
      have h2 := hroom.2
      rw [absSlots_length]
      simp only [totalData] at h2
      omega
    obtain ⟨G', D', j1, j2, j2', j3, j4⟩ := ih i1 hD1 hrep1 (fun x hx => hev x (List.mem_cons_of_mem _ hx))
      (fun x hx => hdt x (List.mem_cons_of_mem _ hx)) hnear2
      (Room.step (n := tr.length + n) (hroom.mono (by simp; omega)) hg (by omega))
    exact ⟨G', D', j1, by rw [List.flatMap_cons, ← List.append_assoc]; exact j2,
      by rw [List.flatMap_cons, ← List.append_assoc]; exact j2', j3, by rw [j4, i2]; rfl⟩
  | @foreign br br1 br2 s s2 tr h1 h2 ih =>
    exact ih h hD hrep (fun x hx => hev x (List.mem_cons_of_mem _ hx)) (fun x hx => hdt x (List.mem_cons_of_mem _ hx)) hnear.2
      (hroom.mono (by simp))
  | @reload br br1 br2 s s1 s2 tr h1 hcl h2 ih =>
    have hlen := h.irep.length
    have hlast : G.length = 1 ∨ 29 < logEnd G := by
      rcases hcl with hcl | hcl
      · left; have := h.iid; omega
      · right; rw [h.fileLen] at hcl; exact hcl
    obtain ⟨t, k1, k2, k3, k4, -⟩ := h.reload br u cfg hcfg (by have := hroom.1; omega) hlast
    have h1' := h1
    rw [h1] at k1
    injection k1 with k1 k1'
    subst k1; subst k1'
    have hD2 : SLog s1 D W := by
      refine ⟨hD.log.load h1' k4 (by rw [k2.did, k2.iid, ← hD.log.length, h.dlen]), hD.room, ?_⟩
      obtain ⟨pre, p1, p2⟩ := k2.map
      exact ⟨pre, by rw [p1, h.starts_eq hD], p2⟩
    exact ih k2 hD2 hrep (fun x hx => hev x (List.mem_cons_of_mem _ hx))
      (fun x hx => hdt x (List.mem_cons_of_mem _ hx)) hnear.2 (by rw [k3, totalData, k4]; exact hroom.mono (by simp))

/-- The data files after an execution, and the slots that they tell. -/
theorem SeqRun.slots {cfg : Option Mode} {u : Nat} {tr : List (NsEvent × Reply)} {br' : Branches} {s' : Store}
    (h : SeqRun cfg u tr br' s') (hdt : ∀ x ∈ tr, WholeData x.1) :
    ∃ G D, SInv s' G ∧ SLog s' D (tr.flatMap acked) ∧ replaySlots [] (tr.flatMap acked) = some (absSlots G) ∧
      Room s'.ifiles.length (totalData s') (maxEvents - tr.length) ∧ absSlots G = specSeqRun [] (tr.map (·.1)) := by
  obtain ⟨br, h1⟩ := h.fresh
  have hlen := h.len
  have hf : absSlots [[]] = [] := rfl
  have key := seqRun_log h.hcfg h1 freshStore_sinv (D := [[]]) (W := []) (n := maxEvents - tr.length) ?_ rfl h.ev hdt
    (by rw [hf]; exact h.near) (by
      have : tr.length + (maxEvents - tr.length) = maxEvents := by omega
      rw [this]
      unfold maxEvents
      constructor
      · simp [freshStore]
      · simp [freshStore, totalData])
  · obtain ⟨G, D, k1, k2, k3, k4, k5⟩ := key
    exact ⟨G, D, k1, by simpa using k2, by simpa using k3, k4, k5⟩
  refine ⟨⟨by simp [freshStore, encDFile], by simp, by simp, ?_, ?_, by simp⟩, ?_, ?_⟩
  · intro g hg
    rw [List.mem_singleton.1 hg]
    intro a x y b hab
    simp at hab
  · intro D0 a x e
    obtain ⟨-, e2⟩ := List.append_inj' (s₁ := []) (t₁ := [[]]) e rfl
    simp at e2
  · intro g hg
    rw [List.mem_singleton.1 hg]
    intro a y b hab
    simp at hab
  · obtain ⟨pre, p1, p2⟩ := freshStore_sinv.map
    exact ⟨pre, p1, p2⟩

/-- The data files after an execution. -/
theorem SeqRun.data {cfg : Option Mode} {u : Nat} {tr : List (NsEvent × Reply)} {br' : Branches} {s' : Store}
    (h : SeqRun cfg u tr br' s') (hdt : ∀ x ∈ tr, WholeData x.1) :
    ∃ G D, SInv s' G ∧ DLog s' D (tr.flatMap acked) ∧ Room s'.ifiles.length (totalData s') (maxEvents - tr.length) := by
  obtain ⟨G, D, h1, h2, -, h3, -⟩ := h.slots hdt
  exact ⟨G, D, h1, h2.log, h3⟩

end Zdb
