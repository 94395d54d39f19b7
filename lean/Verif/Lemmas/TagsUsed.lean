/-
Mode of a namespace, and when it can have entries in the shared table.
-/
import Verif.Lemmas.Tags
import Verif.Lemmas.Layout
namespace Zdb

/-- The mode is kept, the number of the next entry does not go back to 0. -/
def Calm (s t : Store) : Prop := t.mode = s.mode ∧ (t.nextentry = 0 → s.nextentry = 0)

theorem Calm.refl (s : Store) : Calm s s := ⟨rfl, id⟩
theorem Calm.trans {a b c : Store} (h : Calm a b) (h' : Calm b c) : Calm a c :=
  ⟨h'.1.trans h.1, fun x => h.2 (h'.2 x)⟩

/-- As long as no entry was numbered, no entry is added to the shared table. -/
def NoTags (u : Nat) (br : Branches) (t : Store) (br' : Branches) : Prop :=
  t.nextentry = 0 → ∀ h, nsBranch br u h = [] → nsBranch br' u h = []

theorem dataInsert_calm (s : Store) (io : Io) (id p : Bytes) (fl crc ts : Nat) :
    (dataInsert s io id p fl crc ts).1.mode = s.mode ∧ (dataInsert s io id p fl crc ts).1.nextentry = s.nextentry := by
  unfold dataInsert
  simp only
  split
  · exact ⟨rfl, rfl⟩
  · split <;> exact ⟨rfl, rfl⟩

theorem jump_calm (s : Store) : (jump s).mode = s.mode ∧ (jump s).nextentry = s.nextentry := by
  simp only [jump, dataOpen, indexSetId]; exact ⟨trivial, trivial⟩

theorem jumpIfFull_calm (limit : Nat) (s : Store) (len : Nat) :
    (jumpIfFull limit s len).mode = s.mode ∧ (jumpIfFull limit s len).nextentry = s.nextentry := by
  unfold jumpIfFull; split
  · exact jump_calm s
  · exact ⟨rfl, rfl⟩

theorem appendEntry_calm (s : Store) (io : Io) (e : Entry) :
    (appendEntry s io e).1.mode = s.mode ∧ (appendEntry s io e).1.nextentry = s.nextentry := by
  unfold appendEntry; simp only
  split <;> exact ⟨rfl, rfl⟩

theorem deleteDisk_calm (s : Store) (io : Io) (e : Entry) :
    (deleteDisk s io e).1.mode = s.mode ∧ (deleteDisk s io e).1.nextentry = s.nextentry := by
  unfold deleteDisk; simp only
  split
  · exact ⟨rfl, rfl⟩
  · split
    · exact ⟨rfl, rfl⟩
    · split <;> exact ⟨rfl, rfl⟩

theorem overwriteItem_calm (s : Store) (io : Io) (e : Entry) (fid off : Nat) :
    (overwriteItem s io e fid off).mode = s.mode ∧ (overwriteItem s io e fid off).nextentry = s.nextentry := by
  unfold overwriteItem
  split
  · exact ⟨rfl, rfl⟩
  · split
    · exact ⟨rfl, rfl⟩
    · simp only
      split <;> exact ⟨rfl, rfl⟩

theorem seqOverwrite_calm (s : Store) (io : Io) (e : Entry) :
    (seqOverwrite s io e).mode = s.mode ∧ (seqOverwrite s io e).nextentry = s.nextentry := by
  unfold seqOverwrite
  split
  · exact ⟨rfl, rfl⟩
  · simp only
    split
    · exact ⟨rfl, rfl⟩
    · exact overwriteItem_calm _ _ _ _ _

theorem nsBranch_update_nil (br : Branches) (u : Nat) (id : Bytes) (e' : Entry) (he : e'.ns = u) (h : Nat)
    (hn : nsBranch br u h = []) : nsBranch (brUpdate br u id e') u h = [] := by
  rw [nsBranch_update _ _ _ _ _ he, hn]; split <;> rfl

theorem nsBranch_remove_nil (br : Branches) (u : Nat) (id : Bytes) (h : Nat)
    (hn : nsBranch br u h = []) : nsBranch (brRemove br u id) u h = [] := by
  rw [nsBranch_remove, hn]; split <;> rfl

theorem updateUser_calm (br : Branches) (s : Store) (u : Nat) (io : Io) (r : SetReq) (ex : Entry) (he : ex.ns = u) :
    Calm s (updateUser br s u io r ex).2.1 ∧ NoTags u br (updateUser br s u io r ex).2.1 (updateUser br s u io r ex).1 := by
  have h1 := deleteDisk_calm s io ex
  have h2 := appendEntry_calm (updateStats (deleteDisk s io ex).1 ex (r.entry u)) io
    (updatedEntry (deleteDisk s io ex).1 ex (r.entry u))
  refine ⟨⟨?_, ?_⟩, ?_⟩
  · unfold updateUser; simp only
    rw [h2.1, ← h1.1]; rfl
  · unfold updateUser; simp only
    rw [h2.2, ← h1.2]; exact id
  · intro _ h hn
    unfold updateUser; simp only
    refine nsBranch_update_nil _ _ _ _ ?_ _ hn
    unfold appendEntry; simp only
    split <;> exact he

theorem insertUser_calm (br : Branches) (s : Store) (u : Nat) (io : Io) (r : SetReq) :
    Calm s (insertUser br s u io r).2.1 ∧ NoTags u br (insertUser br s u io r).2.1 (insertUser br s u io r).1 := by
  have h2 := appendEntry_calm s io (r.entry u)
  unfold insertUser
  cases h : appendEntry s io (r.entry u) with
  | mk s1 t =>
    obtain ⟨e, ok⟩ := t
    rw [h] at h2
    simp only
    split
    · refine ⟨⟨h2.1, ?_⟩, ?_⟩
      · simp only [insertMemUser]; omega
      · intro h0; simp only [insertMemUser] at h0; omega
    · exact ⟨⟨h2.1, fun h => h2.2.symm.trans h⟩, fun _ _ hn => hn⟩

theorem indexDelete_calm (br : Branches) (s : Store) (u : Nat) (io : Io) (e : Entry) (he : e.ns = u) :
    Calm s (indexDelete br s u io e).2.1 ∧ NoTags u br (indexDelete br s u io e).2.1 (indexDelete br s u io e).1 := by
  have h1 := deleteDisk_calm s io e
  unfold indexDelete
  simp only
  split
  · split
    · exact ⟨⟨h1.1, fun h => h1.2.symm.trans h⟩, fun _ _ hn => nsBranch_remove_nil _ _ _ _ hn⟩
    · exact ⟨⟨h1.1, fun h => h1.2.symm.trans h⟩, fun _ _ hn => hn⟩
  · split
    · exact ⟨⟨h1.1, fun h => h1.2.symm.trans h⟩, fun _ _ hn => nsBranch_update_nil _ _ _ _ (by exact he) _ hn⟩
    · exact ⟨⟨h1.1, fun h => h1.2.symm.trans h⟩, fun _ _ hn => hn⟩

theorem insertSeq_calm (s : Store) (u : Nat) (io : Io) (r : SetReq) : Calm s (insertSeq s u io r).1 := by
  have h2 := appendEntry_calm s io (r.entry u)
  unfold insertSeq
  simp only
  split
  · refine ⟨h2.1, ?_⟩; simp only; omega
  · exact ⟨h2.1, fun h => h2.2.symm.trans h⟩

theorem updateSeq_calm (s : Store) (u : Nat) (io : Io) (r : SetReq) (ex : Entry) : Calm s (updateSeq s u io r ex).1 := by
  have h2 := appendEntry_calm s io { ex with flags := setDeleted ex.flags }
  unfold updateSeq
  simp only
  split
  · refine ⟨(seqOverwrite_calm _ _ _).1.trans h2.1, ?_⟩; simp only; omega
  · exact ⟨h2.1, fun h => h2.2.symm.trans h⟩

/-- What a handler does to mode, numbering and table. -/
def CalmRes (u : Nat) (br : Branches) (s : Store) (x : Branches × Store × Reply) : Prop :=
  Calm s x.2.1 ∧ NoTags u br x.2.1 x.1

theorem CalmRes.same (u : Nat) (br : Branches) (s : Store) (r : Reply) : CalmRes u br s (br, s, r) :=
  ⟨Calm.refl s, fun _ _ hn => hn⟩

theorem setHandlerUser_calm (c : Ctx) (br : Branches) (s : Store) (id payload : Bytes) (ts : Nat)
    (ex : Option Entry) (he : ∀ e, ex = some e → e.ns = c.u) :
    CalmRes c.u br s (setHandlerUser c br s id payload ts ex) := by
  unfold setHandlerUser
  split
  · exact .same _ _ _ _
  · split
    · exact .same _ _ _ _
    · have hd := dataInsert_calm s c.io id payload 0 (crc32 payload) ts
      have hd' : Calm s (dataInsert s c.io id payload 0 (crc32 payload) ts).1 := ⟨hd.1, fun h => hd.2.symm.trans h⟩
      simp only
      split
      · exact ⟨hd', fun _ _ hn => hn⟩
      · cases ex with
        | some e =>
          have := updateUser_calm br (dataInsert s c.io id payload 0 (crc32 payload) ts).1 c.u c.io
            { id := id, offset := (dataInsert s c.io id payload 0 (crc32 payload) ts).2, length := payload.length,
              crc := crc32 payload, dataid := 0, timestamp := ts } e (he e rfl)
          simp only
          split <;> exact ⟨hd'.trans this.1, this.2⟩
        | none =>
          have := insertUser_calm br (dataInsert s c.io id payload 0 (crc32 payload) ts).1 c.u c.io
            { id := id, offset := (dataInsert s c.io id payload 0 (crc32 payload) ts).2, length := payload.length,
              crc := crc32 payload, dataid := 0, timestamp := ts }
          simp only
          split <;> exact ⟨hd'.trans this.1, this.2⟩

theorem setHandlerSeq_calm (c : Ctx) (br : Branches) (s : Store) (key payload : Bytes) (ts : Nat)
    (ex : Option Entry) : CalmRes c.u br s (setHandlerSeq c br s key payload ts ex) := by
  refine ⟨?_, by rw [setHandlerSeq_br]; exact fun _ _ hn => hn⟩
  unfold setHandlerSeq
  split
  · exact Calm.refl _
  · have hd : ∀ id, Calm s (dataInsert s c.io id payload 0 (crc32 payload) ts).1 := fun id =>
      ⟨(dataInsert_calm s c.io id payload 0 (crc32 payload) ts).1,
        fun h => (dataInsert_calm s c.io id payload 0 (crc32 payload) ts).2.symm.trans h⟩
    simp only
    split
    · exact Calm.refl _
    · split
      · exact hd _
      · split
        · split <;> exact (hd _).trans (updateSeq_calm _ _ _ _ _)
        · split <;> exact (hd _).trans (insertSeq_calm _ _ _ _)

theorem CalmRes.after {u : Nat} {br : Branches} {s t : Store} {x : Branches × Store × Reply} (h : Calm s t)
    (hx : CalmRes u br t x) : CalmRes u br s x := ⟨h.trans hx.1, hx.2⟩

theorem cmdSet_body_calm (c : Ctx) (br : Branches) (s : Store) (argv : List Bytes) (key payload : Bytes) :
    CalmRes c.u br s (cmdSet.body c br s argv key payload) := by
  unfold cmdSet.body
  have hns : ∀ e, (if key.length ≠ 0 then indexGet br s c.u key else none) = some e → e.ns = c.u :=
    fun e he => setEntry_ns he
  generalize (if key.length ≠ 0 then indexGet br s c.u key else none) = ex at hns
  have hj : Calm s (jumpIfFull c.limit s payload.length) :=
    ⟨(jumpIfFull_calm _ _ _).1, fun h => (jumpIfFull_calm c.limit s payload.length).2.symm.trans h⟩
  dsimp only
  split
  · exact .same _ _ _ _
  split
  · exact .same _ _ _ _
  split
  · exact .same _ _ _ _
  split
  · exact .same _ _ _ _
  split
  · exact .same _ _ _ _
  split
  · exact .same _ _ _ _
  split
  · exact (setHandlerUser_calm _ _ _ _ _ _ _ hns).after hj
  · exact (setHandlerSeq_calm _ _ _ _ _ _ _).after hj

theorem cmdDel_body_calm (c : Ctx) (br : Branches) (s : Store) (argv : List Bytes) (key : Bytes) :
    CalmRes c.u br s (cmdDel.body c br s argv key) := by
  unfold cmdDel.body
  split
  · exact .same _ _ _ _
  · split
    · exact .same _ _ _ _
    · split
      · exact .same _ _ _ _
      · split
        · exact .same _ _ _ _
        · split
          · exact .same _ _ _ _
          · rename_i e he
            split
            · exact .same _ _ _ _
            · have hd := dataInsert_calm s c.io e.id [] 1 0 (timestampFromSet c.now argv 2)
              have hd' : Calm s (dataInsert s c.io e.id [] 1 0 (timestampFromSet c.now argv 2)).1 :=
                ⟨hd.1, fun h => hd.2.symm.trans h⟩
              simp only
              split
              · exact ⟨hd', fun _ _ hn => hn⟩
              · have := indexDelete_calm br (dataInsert s c.io e.id [] 1 0 (timestampFromSet c.now argv 2)).1 c.u c.io e
                  (indexGet_ns he)
                split <;> exact ⟨hd'.trans this.1, this.2⟩

theorem dsCommand_calm (c : Ctx) (br : Branches) (s : Store) (d : DsCmd) (argv : List Bytes) :
    CalmRes c.u br s (dsCommand c br s d argv) := by
  cases d with
  | set =>
    unfold dsCommand cmdSet
    simp only
    split
    · exact cmdSet_body_calm _ _ _ _ _ _
    · split
      · exact cmdSet_body_calm _ _ _ _ _ _
      · exact .same _ _ _ _
    · exact .same _ _ _ _
  | del =>
    unfold dsCommand cmdDel
    simp only
    split
    · split
      · exact cmdDel_body_calm _ _ _ _ _
      · exact .same _ _ _ _
    · split
      · exact .same _ _ _ _
      · split
        · exact cmdDel_body_calm _ _ _ _ _
        · exact .same _ _ _ _
  | nsjump =>
    unfold dsCommand cmdNsjump
    simp only
    split
    · exact ⟨⟨(jump_calm s).1, fun h => (jump_calm s).2.symm.trans h⟩, fun _ _ hn => hn⟩
    · exact .same _ _ _ _
  | index =>
    unfold dsCommand
    simp only
    refine ⟨?_, fun _ _ hn => hn⟩
    rcases cmdIndex_cases c s argv with h | h <;> rw [h] <;> exact Calm.refl _
  | _ => exact .same _ _ _ _

/-- Without branches the shared table is never changed. -/
theorem dsCommand_seq_br (c : Ctx) (br : Branches) (s : Store) (d : DsCmd) (argv : List Bytes) (hm : s.mode = .seq) :
    (dsCommand c br s d argv).1 = br := by
  have hset : ∀ key payload, (cmdSet.body c br s argv key payload).1 = br := by
    intro key payload
    unfold cmdSet.body
    generalize (if key.length ≠ 0 then indexGet br s c.u key else none) = ex
    dsimp only
    repeat' split
    all_goals first
      | rfl
      | exact setHandlerSeq_br _ _ _ _ _ _ _
      | (rename_i h; rw [hm] at h; exact absurd h (by simp))
  have hdel : ∀ key, (cmdDel.body c br s argv key).1 = br := by
    intro key
    unfold cmdDel.body
    have hm' : ∀ e : Entry, ∀ ts, ((deleteDisk (dataInsert s c.io e.id [] 1 0 ts).1 c.io e).1).mode = .seq := fun e ts =>
      (deleteDisk_calm _ _ _).1.trans ((dataInsert_calm _ _ _ _ _ _ _).1.trans hm)
    have hi : ∀ (e : Entry) ts, (indexDelete br (dataInsert s c.io e.id [] 1 0 ts).1 c.u c.io e).1 = br := by
      intro e ts
      unfold indexDelete
      simp only [hm']
      split <;> rfl
    simp only
    split
    · rfl
    split
    · rfl
    split
    · rfl
    split
    · rfl
    split
    · rfl
    split
    · rfl
    split
    · rfl
    split <;> exact hi _ _
  cases d with
  | set =>
    unfold dsCommand cmdSet
    simp only
    split
    · exact hset _ _
    · split
      · exact hset _ _
      · rfl
    · rfl
  | del =>
    unfold dsCommand cmdDel
    simp only
    split
    · split
      · exact hdel _
      · rfl
    · split
      · rfl
      · split
        · exact hdel _
        · rfl
  | _ => rfl

/-! ### loading -/

/-- The index files from number `k` on carry mode `m`. -/
def HeadsFrom (m : Mode) (k : Nat) (fs : List Bytes) : Prop :=
  ∀ j f, k ≤ j → fs[j]? = some f → f ≠ [] → (decIHeader f).mode = m.byte

/-- All index files carry mode `m`, and in sequential mode the first one is not empty. -/
def Heads (m : Mode) (fs : List Bytes) : Prop := HeadsFrom m 0 fs ∧ (m = .user ∨ ∃ f, fs[0]? = some f ∧ f ≠ [])

/-- Files that will be loaded in mode `m`. -/
def ModeOf (cfg : Option Mode) (m : Mode) (fs : List Bytes) : Prop := cfg = some m ∨ (cfg = none ∧ Heads m fs)

/-- What loading does to the mode and to the shared table. -/
structure LoadOK (m : Mode) (u : Nat) (br : Branches) (s : Store) (br' : Branches) (s' : Store) : Prop where
  mode : s'.mode = m
  seq : m = .seq → br' = br
  mono : s'.nextentry = 0 → s.nextentry = 0
  tags : NoTags u br s' br'

theorem replayItem_ok (m : Mode) (u : Nat) (br : Branches) (s : Store) (off : Nat) (it : Item) (hm : s.mode = m) :
    LoadOK m u br s (replayItem br s u off it).1 (replayItem br s u off it).2 := by
  unfold replayItem
  have key : ∀ t : Store, t.mode = m → t.nextentry = s.nextentry →
      LoadOK m u br s (match (match t.mode with
        | .user => replayUser br t u off it
        | .seq => (br, replaySeq t it)) with | (br, s) => (br, { s with iprev := off })).1
       (match (match t.mode with
        | .user => replayUser br t u off it
        | .seq => (br, replaySeq t it)) with | (br, s) => (br, { s with iprev := off })).2 := by
    intro t ht hn
    cases m with
    | seq =>
      simp only [ht]
      refine ⟨?_, fun _ => rfl, ?_, fun _ _ h => h⟩
      · unfold replaySeq; simp only; split <;> exact ht
      · unfold replaySeq; simp only; split <;> simp only <;> omega
    | user =>
      simp only [ht]
      unfold replayUser
      cases hg : indexGet br t u it.id with
      | some ex =>
        have hns := indexGet_ns hg
        simp only
        split
        · exact ⟨ht, by simp, fun h => hn.symm.trans h, fun _ _ h => nsBranch_remove_nil _ _ _ _ h⟩
        · exact ⟨ht, by simp, fun h => hn.symm.trans h, fun _ _ h => nsBranch_update_nil _ _ _ _ (by exact hns) _ h⟩
      | none =>
        simp only [insertMemUser]
        split
        · refine ⟨ht, by simp, ?_, ?_⟩
          · simp only; omega
          · intro h; simp only at h; omega
        · refine ⟨ht, by simp, ?_, ?_⟩
          · simp only; omega
          · intro h; simp only at h; omega
  split
  · exact key _ hm rfl
  · exact key _ hm rfl

theorem LoadOK.trans {m : Mode} {u : Nat} {br br' br'' : Branches} {s s' s'' : Store} (h : LoadOK m u br s br' s')
    (h' : LoadOK m u br' s' br'' s'') : LoadOK m u br s br'' s'' :=
  ⟨h'.mode, fun hm => (h'.seq hm).trans (h.seq hm), fun x => h.mono (h'.mono x),
    fun x k hn => h'.tags x k (h.tags (h'.mono x) k hn)⟩

theorem LoadOK.refl {m : Mode} {u : Nat} {br : Branches} {s s' : Store} (hm : s'.mode = m)
    (hn : s'.nextentry = s.nextentry) : LoadOK m u br s br s' :=
  ⟨hm, fun _ => rfl, fun h => hn.symm.trans h, fun _ _ h => h⟩

theorem replayItems_ok (m : Mode) (u : Nat) (its : List Item) : ∀ (br : Branches) (s : Store) (off : Nat),
    s.mode = m → LoadOK m u br s (replayItems br s u off its).1 (replayItems br s u off its).2 := by
  induction its with
  | nil => exact fun br s off hm => LoadOK.refl hm rfl
  | cons it its ih =>
    intro br s off hm
    simp only [replayItems]
    exact (replayItem_ok m u br s off it hm).trans (ih _ _ _ (replayItem_ok m u br s off it hm).mode)

theorem replayItem_files (br : Branches) (s : Store) (u off : Nat) (it : Item) :
    (replayItem br s u off it).2.ifiles = s.ifiles ∧ (replayItem br s u off it).2.indexid = s.indexid := by
  have hu : ∀ t : Store, (replayUser br t u off it).2.ifiles = t.ifiles ∧
      (replayUser br t u off it).2.indexid = t.indexid := by
    intro t
    unfold replayUser
    simp only
    split
    · split <;> exact ⟨rfl, rfl⟩
    · simp only [insertMemUser]; split <;> exact ⟨rfl, rfl⟩
  have hs : ∀ t : Store, (replaySeq t it).ifiles = t.ifiles ∧ (replaySeq t it).indexid = t.indexid := by
    intro t; unfold replaySeq; simp only; split <;> exact ⟨rfl, rfl⟩
  unfold replayItem
  split
  · dsimp only
    cases s.mode with
    | user => exact hu _
    | seq => exact hs _
  · dsimp only
    cases s.mode with
    | user => exact hu _
    | seq => exact hs _

theorem replayItems_files (u : Nat) (its : List Item) : ∀ (br : Branches) (s : Store) (off : Nat),
    (replayItems br s u off its).2.ifiles = s.ifiles ∧ (replayItems br s u off its).2.indexid = s.indexid := by
  induction its with
  | nil => exact fun br s off => ⟨rfl, rfl⟩
  | cons it its ih =>
    intro br s off
    simp only [replayItems]
    have h1 := ih (replayItem br s u off it).1 (replayItem br s u off it).2 (off + itemHdr + it.idlength)
    have h2 := replayItem_files br s u off it
    exact ⟨h1.1.trans h2.1, h1.2.trans h2.2⟩

theorem applyMode_byte (m0 m : Mode) : applyMode m0 m.byte = m := by
  cases m <;> rfl

theorem rehash_rest (s : Store) : (rehash s).mode = s.mode ∧ (rehash s).nextentry = s.nextentry ∧
    (rehash s).ifiles = s.ifiles ∧ (rehash s).indexid = s.indexid := ⟨rfl, rfl, rfl, rfl⟩

theorem headsFrom_set {m : Mode} {k : Nat} {fs : List Bytes} (h : HeadsFrom m k fs) (f : Bytes) :
    HeadsFrom m (k + 1) (if k < fs.length then fs.set k f else fs ++ [f]) := by
  intro j g hj hg
  split at hg
  · rw [List.getElem?_set_ne (by omega)] at hg
    exact h j g (by omega) hg
  · rw [List.getElem?_append_right (by omega)] at hg
    rw [List.getElem?_eq_none (by simp; omega)] at hg
    exact absurd hg (by simp)

theorem loadBody_ok {cfg : Option Mode} {m : Mode} {br br' : Branches} {s s' : Store} {u : Nat} {f : Bytes} {fresh : Bool}
    (hm : cfg = some m ∨ (decIHeader f).mode = m.byte)
    (hf : HeadsFrom m s.indexid s.ifiles ∨ cfg = some m)
    (h : loadBody cfg br s u f fresh = .next br' s' ∨ loadBody cfg br s u f fresh = .stop br' s') :
    LoadOK m u br s br' s' ∧ (HeadsFrom m (s.indexid + 1) s'.ifiles ∨ cfg = some m) := by
  unfold loadBody at h
  simp only at h
  split at h
  · rcases h with h | h <;> exact absurd h (by simp)
  · split at h
    · rcases h with h | h <;> exact absurd h (by simp)
    · rename_i hc
      have hmode : (decIHeader f).mode = m.byte := by
        rcases hm with rfl | hm
        · simp only [Option.any_some, decide_eq_true_eq, ne_eq, Classical.not_not] at hc
          exact hc.symm
        · exact hm
      split at h
      · rcases h with h | h <;> exact absurd h (by simp)
      · rename_i its _
        rw [hmode, applyMode_byte] at h
        have hres : ∀ (t0 : Store) (g : Bytes), t0.mode = m → t0.nextentry = s.nextentry →
            t0.ifiles = (if s.indexid < s.ifiles.length then s.ifiles.set s.indexid g else s.ifiles ++ [g]) →
            LoadOK m u br s (replayItems br t0 u ihdrLen its).1 (replayItems br t0 u ihdrLen its).2 ∧
              (HeadsFrom m (s.indexid + 1) (replayItems br t0 u ihdrLen its).2.ifiles ∨ cfg = some m) := by
          intro t0 g h0 h1 h2
          have hk := replayItems_ok m u its br t0 ihdrLen h0
          have hq := replayItems_files u its br t0 ihdrLen
          refine ⟨⟨hk.mode, hk.seq, fun h => h1.symm.trans (hk.mono h), hk.tags⟩, ?_⟩
          rcases hf with hf | hf
          · left; rw [hq.1, h2]; exact headsFrom_set hf _
          · exact Or.inr hf
        split at h
        · rcases h with h | h
          · exact absurd h (by simp)
          · injection h with h1 h2
            subst h1; subst h2; exact hres _ _ rfl rfl rfl
        · rcases h with h | h
          · injection h with h1 h2
            subst h1; subst h2; exact hres _ _ rfl rfl rfl
          · exact absurd h (by simp)

theorem decIHeader_fresh (i : Nat) (m : Mode) (hi : i < 2 ^ 32) :
    (decIHeader (encIHeader (freshIHeader i m.byte))).mode = m.byte := by
  rw [decIHeader_encIHeader]
  · rfl
  · refine ⟨rfl, ?_, ?_, ?_, hi, ?_⟩
    · simp [freshIHeader]
    · simp [freshIHeader]
    · simp [freshIHeader]
    · cases m <;> simp [freshIHeader, Mode.byte]

theorem HeadsFrom.mono {m : Mode} {k l : Nat} {fs : List Bytes} (h : HeadsFrom m k fs) (hl : k ≤ l) : HeadsFrom m l fs :=
  fun j f hj => h j f (by omega)

theorem loadFile_ok {cfg : Option Mode} {m : Mode} {br br' : Branches} {s s' : Store} {u : Nat}
    (hs : s.mode = m ∨ (s.ifiles[s.indexid]?).getD [] ≠ [])
    (hf : HeadsFrom m s.indexid s.ifiles ∨ cfg = some m)
    (h : loadFile cfg br s u = .next br' s' ∨ loadFile cfg br s u = .stop br' s') :
    LoadOK m u br s br' s' ∧ (HeadsFrom m (s.indexid + 1) s'.ifiles ∨ cfg = some m) := by
  unfold loadFile at h
  simp only at h
  split at h
  · rename_i hlen
    have hm : s.mode = m := by
      rcases hs with hs | hs
      · exact hs
      · exact absurd (List.length_eq_zero_iff.1 hlen) hs
    split at h
    · rcases h with h | h
      · exact absurd h (by simp)
      · injection h with h1 h2
        subst h1; subst h2
        refine ⟨LoadOK.refl hm rfl, ?_⟩
        exact hf.imp (fun h => h.mono (by omega)) id
    · refine loadBody_ok (Or.inr ?_) hf h
      rw [hm]; exact decIHeader_fresh 0 m (by decide)
  · rename_i hlen
    split at h
    · rcases h with h | h <;> exact absurd h (by simp)
    · refine loadBody_ok ?_ hf h
      rcases hf with hf | hf
      · right
        cases hg : s.ifiles[s.indexid]? with
        | none => rw [hg] at hlen; simp at hlen
        | some f =>
          rw [hg] at hlen
          refine hf _ f (Nat.le_refl _) hg ?_
          intro h0; rw [h0] at hlen; simp at hlen
      · exact Or.inl hf

theorem loadLoop_ok {cfg : Option Mode} {m : Mode} {u : Nat} (len : Nat) : ∀ {k : Nat} {br br' : Branches} {s s' : Store},
    (s.mode = m ∨ (len ≠ 0 ∧ (s.ifiles[k]?).getD [] ≠ [])) → (HeadsFrom m k s.ifiles ∨ cfg = some m) →
    loadLoop cfg u (List.range' k len) br s = .ok br' s' → LoadOK m u br s br' s' := by
  induction len with
  | zero =>
    intro k br br' s s' hs hf h
    simp only [List.range'_zero, loadLoop] at h
    injection h with h1 h2
    subst h1; subst h2
    rcases hs with hs | hs
    · exact LoadOK.refl hs rfl
    · exact absurd rfl hs.1
  | succ len ih =>
    intro k br br' s s' hs hf h
    simp only [List.range'_succ, loadLoop] at h
    have hs' : (indexSetId s k).mode = m ∨ ((indexSetId s k).ifiles[(indexSetId s k).indexid]?).getD [] ≠ [] :=
      hs.imp id (fun h => h.2)
    have key : ∀ b t, (loadFile cfg br (indexSetId s k) u = .next b t ∨ loadFile cfg br (indexSetId s k) u = .stop b t) →
        LoadOK m u br s b t ∧ (HeadsFrom m (k + 1) t.ifiles ∨ cfg = some m) := fun b t hb => by
      have := loadFile_ok hs' hf hb
      exact ⟨⟨this.1.mode, this.1.seq, this.1.mono, this.1.tags⟩, this.2⟩
    cases hl : loadFile cfg br (indexSetId s k) u with
    | next b t =>
      rw [hl] at h
      have := key b t (Or.inl hl)
      exact this.1.trans (ih (Or.inl this.1.mode) this.2 h)
    | stop b t =>
      rw [hl] at h
      injection h with h1 h2
      subst h1; subst h2
      exact (key b t (Or.inr hl)).1
    | exit => rw [hl] at h; exact absurd h (by simp)
    | ub => rw [hl] at h; exact absurd h (by simp)

theorem foldl_setId (l : List Nat) : ∀ s : Store, (l.foldl indexSetId s).mode = s.mode ∧
    (l.foldl indexSetId s).nextentry = s.nextentry ∧ (l.foldl indexSetId s).ifiles = s.ifiles := by
  induction l with
  | nil => exact fun s => ⟨rfl, rfl, rfl⟩
  | cons i l ih => exact fun s => ih (indexSetId s i)

/-- Loading files of one mode: the mode is theirs, without branches the shared table is not changed, and there
    are entries only if some were numbered. -/
theorem loadNs_ok {cfg : Option Mode} {m : Mode} {br br' : Branches} {u : Nat} {fi fd : List Bytes} {s : Store}
    (hm : ModeOf cfg m fi) (h : loadNs cfg br u fi fd = .ok br' s) :
    s.mode = m ∧ (m = .seq → br' = br) ∧ NoTags u br s br' := by
  unfold loadNs at h
  simp only at h
  cases hl : loadLoop cfg u (if maxFiles fi > 0 then List.range (maxFiles fi) else [0]) br
      ((List.range (maxFiles fi + 1)).foldl indexSetId (initRoot cfg fi fd)) with
  | ok b t =>
    rw [hl] at h
    injection h with h1 h2
    subst h1; subst h2
    have hq := foldl_setId (List.range (maxFiles fi + 1)) (initRoot cfg fi fd)
    have hr : (if maxFiles fi > 0 then List.range (maxFiles fi) else [0]) =
        List.range' 0 (if maxFiles fi > 0 then maxFiles fi else 1) := by
      split
      · exact List.range_eq_range'
      · rfl
    rw [hr] at hl
    have hfi : (initRoot cfg fi fd).ifiles = fi := rfl
    have := loadLoop_ok (m := m) _ (by
      rcases hm with hm | ⟨hc, hm⟩
      · left; rw [hq.1, hm]; rfl
      · rcases hm.2 with hu | ⟨f, h1, h2⟩
        · left; rw [hq.1, hc, hu]; rfl
        · right
          refine ⟨by split <;> omega, ?_⟩
          rw [hq.2.2, hfi, h1]; exact h2) (by
      rcases hm with hm | ⟨-, hm⟩
      · exact Or.inr hm
      · left; rw [hq.2.2, hfi]; exact hm.1) hl
    exact ⟨this.mode, this.seq, this.tags⟩
  | exit => rw [hl] at h; exact absurd h (by simp)
  | ub => rw [hl] at h; exact absurd h (by simp)

end Zdb
