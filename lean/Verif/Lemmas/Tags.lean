/-
Handlers and the loader only see and touch the entries of their own namespace in the shared table.
-/
import Verif.Lemmas.Branch
import Verif.Model.Engine
namespace Zdb

/-- The two tables hold the same entries of namespace `u`. -/
def SameTags (u : Nat) (br br' : Branches) : Prop := ∀ h, nsBranch br u h = nsBranch br' u h

/-- Only entries of namespace `u` may differ. -/
def OnlyTags (u : Nat) (br br' : Branches) : Prop := ∀ v h, v ≠ u → nsBranch br' v h = nsBranch br v h

theorem SameTags.refl (u : Nat) (br : Branches) : SameTags u br br := fun _ => rfl
theorem OnlyTags.refl (u : Nat) (br : Branches) : OnlyTags u br br := fun _ _ _ => rfl
theorem OnlyTags.trans {u : Nat} {a b c : Branches} (h1 : OnlyTags u a b) (h2 : OnlyTags u b c) : OnlyTags u a c :=
  fun v h hv => by rw [h2 v h hv, h1 v h hv]

theorem indexGet_ns {br : Branches} {s : Store} {u : Nat} {id : Bytes} {e : Entry} (h : indexGet br s u id = some e) :
    e.ns = u := by
  unfold indexGet at h
  cases hm : s.mode with
  | user =>
    rw [hm] at h
    simp only at h
    cases hg : brGet br u id with
    | none => rw [hg] at h; exact absurd h (by simp)
    | some x =>
      rw [hg] at h
      have hx := List.find?_some hg
      simp only [Entry.is, Bool.and_eq_true, beq_iff_eq] at hx
      by_cases hd : isDeleted x.flags = true
      · simp [hd] at h
      · simp [hd] at h; rw [← h]; exact hx.1
  | seq =>
    rw [hm] at h
    simp only at h
    cases hg : seqGet s u id with
    | none => rw [hg] at h; exact absurd h (by simp)
    | some x =>
      rw [hg] at h
      have hx : x.ns = u := by
        unfold seqGet at hg
        simp only at hg
        repeat' split at hg
        all_goals first | (injection hg with hg; rw [← hg]; done) | exact absurd hg (by simp)
      by_cases hd : isDeleted x.flags = true
      · simp [hd] at h
      · simp [hd] at h; rw [← h]; exact hx

theorem indexGet_congr {br br' : Branches} {u : Nat} (h : SameTags u br br') (s : Store) (id : Bytes) :
    indexGet br s u id = indexGet br' s u id := by
  unfold indexGet
  have : brGet br u id = brGet br' u id := by rw [brGet_eq, brGet_eq, h]
  rw [this]

/-! ### what a handler touches -/

theorem updateUser_only (br : Branches) (s : Store) (u : Nat) (io : Io) (r : SetReq) (ex : Entry) (he : ex.ns = u) :
    OnlyTags u br (updateUser br s u io r ex).1 := by
  intro v h hv
  unfold updateUser appendEntry
  simp only
  split
  · exact nsBranch_update_other _ _ _ _ _ _ he hv
  · exact nsBranch_update_other _ _ _ _ _ _ he hv

theorem insertUser_only (br : Branches) (s : Store) (u : Nat) (io : Io) (r : SetReq) :
    OnlyTags u br (insertUser br s u io r).1 := by
  intro v h hv
  unfold insertUser
  split
  rename_i s' e ok heq
  simp only
  split
  · simp only [insertMemUser]
    rw [nsBranch_append, if_neg (by simp; intro _ hh; exact hv hh.symm), List.append_nil]
  · rfl

theorem indexDelete_only (br : Branches) (s : Store) (u : Nat) (io : Io) (e : Entry) (he : e.ns = u) :
    OnlyTags u br (indexDelete br s u io e).1 := by
  intro v h hv
  unfold indexDelete
  simp only
  split
  · split
    · exact nsBranch_remove_other _ _ _ _ _ hv
    · rfl
  · split
    · exact nsBranch_update_other _ _ _ _ _ _ he hv
    · rfl

theorem setHandlerUser_only (c : Ctx) (br : Branches) (s : Store) (id payload : Bytes) (ts : Nat)
    (ex : Option Entry) (he : ∀ e, ex = some e → e.ns = c.u) :
    OnlyTags c.u br (setHandlerUser c br s id payload ts ex).1 := by
  unfold setHandlerUser
  split
  · exact OnlyTags.refl _ _
  · split
    · exact OnlyTags.refl _ _
    · simp only
      split
      · exact OnlyTags.refl _ _
      · cases ex with
        | some e =>
          simp only
          split <;> exact updateUser_only _ _ _ _ _ _ (he e rfl)
        | none =>
          simp only
          split <;> exact insertUser_only _ _ _ _ _

theorem setHandlerSeq_br (c : Ctx) (br : Branches) (s : Store) (key payload : Bytes) (ts : Nat)
    (ex : Option Entry) : (setHandlerSeq c br s key payload ts ex).1 = br := by
  unfold setHandlerSeq
  split
  · rfl
  · simp only
    split
    · rfl
    · split
      · rfl
      · split <;> split <;> rfl

theorem setEntry_ns {br : Branches} {s : Store} {u : Nat} {key : Bytes} {e : Entry}
    (h : (if key.length ≠ 0 then indexGet br s u key else none) = some e) : e.ns = u := by
  split at h
  · exact indexGet_ns h
  · exact absurd h (by simp)

theorem cmdSet_body_only (c : Ctx) (br : Branches) (s : Store) (argv : List Bytes) (key payload : Bytes) :
    OnlyTags c.u br (cmdSet.body c br s argv key payload).1 := by
  unfold cmdSet.body
  have hns : ∀ e, (if key.length ≠ 0 then indexGet br s c.u key else none) = some e → e.ns = c.u :=
    fun e he => setEntry_ns he
  generalize (if key.length ≠ 0 then indexGet br s c.u key else none) = ex at hns
  dsimp only
  split
  · exact OnlyTags.refl _ _
  split
  · exact OnlyTags.refl _ _
  split
  · exact OnlyTags.refl _ _
  split
  · exact OnlyTags.refl _ _
  split
  · exact OnlyTags.refl _ _
  split
  · exact OnlyTags.refl _ _
  split
  · exact setHandlerUser_only _ _ _ _ _ _ _ hns
  · rw [setHandlerSeq_br]; exact OnlyTags.refl _ _

theorem cmdDel_body_only (c : Ctx) (br : Branches) (s : Store) (argv : List Bytes) (key : Bytes) :
    OnlyTags c.u br (cmdDel.body c br s argv key).1 := by
  unfold cmdDel.body
  split
  · exact OnlyTags.refl _ _
  · split
    · exact OnlyTags.refl _ _
    · split
      · exact OnlyTags.refl _ _
      · split
        · exact OnlyTags.refl _ _
        · split
          · exact OnlyTags.refl _ _
          · rename_i e he
            split
            · exact OnlyTags.refl _ _
            · simp only
              split
              · exact OnlyTags.refl _ _
              · split <;> exact indexDelete_only _ _ _ _ _ (indexGet_ns he)

theorem dsCommand_only (c : Ctx) (br : Branches) (s : Store) (d : DsCmd) (argv : List Bytes) :
    OnlyTags c.u br (dsCommand c br s d argv).1 := by
  cases d with
  | set =>
    unfold dsCommand cmdSet
    simp only
    split
    · exact cmdSet_body_only _ _ _ _ _ _
    · split
      · exact cmdSet_body_only _ _ _ _ _ _
      · exact OnlyTags.refl _ _
    · exact OnlyTags.refl _ _
  | del =>
    unfold dsCommand cmdDel
    simp only
    split
    · split
      · exact cmdDel_body_only _ _ _ _ _
      · exact OnlyTags.refl _ _
    · split
      · exact OnlyTags.refl _ _
      · split
        · exact cmdDel_body_only _ _ _ _ _
        · exact OnlyTags.refl _ _
  | _ => exact OnlyTags.refl _ _

/-! ### what the loader touches -/

theorem replayUser_only (br : Branches) (s : Store) (u off : Nat) (it : Item) :
    OnlyTags u br (replayUser br s u off it).1 := by
  unfold replayUser
  simp only
  cases hg : indexGet br s u it.id with
  | some ex =>
    have hns : ex.ns = u := indexGet_ns hg
    simp only
    split
    · exact fun v h hv => nsBranch_remove_other _ _ _ _ _ hv
    · exact fun v h hv => nsBranch_update_other _ _ _ _ _ _ hns hv
  | none =>
    simp only [insertMemUser]
    have ha : ∀ e : Entry, e.ns = u → OnlyTags u br (brAppend br e) := fun e he v h hv => by
      rw [nsBranch_append, if_neg (by rw [he]; intro hh; exact hv hh.2.symm), List.append_nil]
    split
    · intro v h hv
      rw [nsBranch_remove_other _ _ _ _ _ hv]
      exact ha _ rfl v h hv
    · exact ha _ rfl

theorem replayItem_only (br : Branches) (s : Store) (u off : Nat) (it : Item) :
    OnlyTags u br (replayItem br s u off it).1 := by
  unfold replayItem
  split
  · dsimp only
    cases s.mode with
    | user => exact replayUser_only _ _ _ _ _
    | seq => exact OnlyTags.refl _ _
  · dsimp only
    cases s.mode with
    | user => exact replayUser_only _ _ _ _ _
    | seq => exact OnlyTags.refl _ _

theorem replayItems_only (u : Nat) (its : List Item) : ∀ (br : Branches) (s : Store) (off : Nat),
    OnlyTags u br (replayItems br s u off its).1 := by
  induction its with
  | nil => exact fun br s off => OnlyTags.refl _ _
  | cons it its ih =>
    intro br s off
    simp only [replayItems]
    exact (replayItem_only br s u off it).trans (ih _ _ _)

theorem loadBody_only {cfg : Option Mode} {br br' : Branches} {s s' : Store} {u : Nat} {f : Bytes} {fresh : Bool}
    (h : loadBody cfg br s u f fresh = .next br' s' ∨ loadBody cfg br s u f fresh = .stop br' s') :
    OnlyTags u br br' := by
  unfold loadBody at h
  simp only at h
  split at h
  · rcases h with h | h <;> exact absurd h (by simp)
  · split at h
    · rcases h with h | h <;> exact absurd h (by simp)
    · split at h
      · rcases h with h | h <;> exact absurd h (by simp)
      · have hk := replayItems_only u
        rename_i its _
        split at h
        · rcases h with h | h
          · exact absurd h (by simp)
          · injection h with h1 h2
            rw [← h1]; exact hk _ _ _ _
        · rcases h with h | h
          · injection h with h1 h2
            rw [← h1]; exact hk _ _ _ _
          · exact absurd h (by simp)

theorem loadFile_only {cfg : Option Mode} {br br' : Branches} {s s' : Store} {u : Nat}
    (h : loadFile cfg br s u = .next br' s' ∨ loadFile cfg br s u = .stop br' s') : OnlyTags u br br' := by
  unfold loadFile at h
  simp only at h
  split at h
  · split at h
    · rcases h with h | h
      · exact absurd h (by simp)
      · injection h with h1 h2
        rw [← h1]; exact OnlyTags.refl _ _
    · exact loadBody_only h
  · split at h
    · rcases h with h | h <;> exact absurd h (by simp)
    · exact loadBody_only h

theorem loadLoop_only {cfg : Option Mode} {u : Nat} (ids : List Nat) : ∀ {br br' : Branches} {s s' : Store},
    loadLoop cfg u ids br s = .ok br' s' → OnlyTags u br br' := by
  induction ids with
  | nil =>
    intro br br' s s' h
    simp only [loadLoop] at h
    injection h with h1 h2
    rw [← h1]; exact OnlyTags.refl _ _
  | cons id ids ih =>
    intro br br' s s' h
    simp only [loadLoop] at h
    cases hf : loadFile cfg br (indexSetId s id) u with
    | next b t => rw [hf] at h; exact (loadFile_only (Or.inl hf)).trans (ih h)
    | stop b t =>
      rw [hf] at h
      injection h with h1 h2
      rw [← h1]; exact loadFile_only (Or.inr hf)
    | exit => rw [hf] at h; exact absurd h (by simp)
    | ub => rw [hf] at h; exact absurd h (by simp)

theorem loadNs_only {cfg : Option Mode} {br br' : Branches} {u : Nat} {fi fd : List Bytes} {s : Store}
    (h : loadNs cfg br u fi fd = .ok br' s) : OnlyTags u br br' := by
  unfold loadNs at h
  simp only at h
  split at h
  · rename_i heq
    injection h with h1 h2
    rw [← h1]; exact loadLoop_only _ heq
  · rename_i hne
    exact absurd h (hne _ _)

theorem reloadNs_only {cfg : Option Mode} {br br' : Branches} {u : Nat} {s s' : Store}
    (h : reloadNs cfg br u s = .ok br' s') : OnlyTags u br br' := by
  unfold reloadNs at h
  have := loadNs_only h
  cases hm : s.mode with
  | user =>
    rw [hm] at this
    exact OnlyTags.trans (fun v k hv => nsBranch_clean_other _ _ _ _ hv) this
  | seq => rw [hm] at this; exact this

/-! ### what a handler sees -/

/-- Same store and reply, same entries of the namespace. -/
structure SameRes {α : Type} (u : Nat) (x y : Branches × α) : Prop where
  tags : SameTags u x.1 y.1
  rest : x.2 = y.2

theorem updateUser_congr {br br' : Branches} {u : Nat} (h : SameTags u br br') (s : Store) (io : Io) (r : SetReq)
    (ex : Entry) (he : ex.ns = u) : SameRes u (updateUser br s u io r ex) (updateUser br' s u io r ex) := by
  unfold updateUser
  refine ⟨fun k => ?_, rfl⟩
  unfold appendEntry
  simp only
  split
  · rw [nsBranch_update _ _ _ _ _ (by exact he), nsBranch_update _ _ _ _ _ (by exact he), h]
  · rw [nsBranch_update _ _ _ _ _ (by exact he), nsBranch_update _ _ _ _ _ (by exact he), h]

theorem insertUser_congr {br br' : Branches} {u : Nat} (h : SameTags u br br') (s : Store) (io : Io) (r : SetReq) :
    SameRes u (insertUser br s u io r) (insertUser br' s u io r) := by
  unfold insertUser
  split
  rename_i s' e ok heq
  simp only
  split
  · refine ⟨fun k => ?_, rfl⟩
    simp only [insertMemUser]
    rw [nsBranch_append, nsBranch_append, h]
  · exact ⟨h, rfl⟩

theorem indexDelete_congr {br br' : Branches} {u : Nat} (h : SameTags u br br') (s : Store) (io : Io) (e : Entry)
    (he : e.ns = u) : SameRes u (indexDelete br s u io e) (indexDelete br' s u io e) := by
  unfold indexDelete
  simp only
  split
  · split
    · refine ⟨fun k => ?_, rfl⟩
      rw [nsBranch_remove, nsBranch_remove, h]
    · exact ⟨h, rfl⟩
  · split
    · refine ⟨fun k => ?_, rfl⟩
      rw [nsBranch_update _ _ _ _ _ (by exact he), nsBranch_update _ _ _ _ _ (by exact he), h]
    · exact ⟨h, rfl⟩

theorem setHandlerUser_congr {c : Ctx} {br br' : Branches} (h : SameTags c.u br br') (s : Store) (id payload : Bytes)
    (ts : Nat) (ex : Option Entry) (he : ∀ e, ex = some e → e.ns = c.u) :
    SameRes c.u (setHandlerUser c br s id payload ts ex) (setHandlerUser c br' s id payload ts ex) := by
  unfold setHandlerUser
  split
  · exact ⟨h, rfl⟩
  · split
    · exact ⟨h, rfl⟩
    · simp only
      split
      · exact ⟨h, rfl⟩
      · cases ex with
        | some e =>
          have := updateUser_congr h (dataInsert s c.io id payload 0 (crc32 payload) ts).1 c.io
            { id := id, offset := (dataInsert s c.io id payload 0 (crc32 payload) ts).2, length := payload.length,
              crc := crc32 payload, dataid := 0, timestamp := ts } e (he e rfl)
          simp only [this.rest]
          split <;> exact ⟨this.tags, rfl⟩
        | none =>
          have := insertUser_congr h (dataInsert s c.io id payload 0 (crc32 payload) ts).1 c.io
            { id := id, offset := (dataInsert s c.io id payload 0 (crc32 payload) ts).2, length := payload.length,
              crc := crc32 payload, dataid := 0, timestamp := ts }
          simp only [this.rest]
          split <;> exact ⟨this.tags, rfl⟩

theorem setHandlerSeq_congr {c : Ctx} {br br' : Branches} (h : SameTags c.u br br') (s : Store) (key payload : Bytes)
    (ts : Nat) (ex : Option Entry) :
    SameRes c.u (setHandlerSeq c br s key payload ts ex) (setHandlerSeq c br' s key payload ts ex) := by
  refine ⟨by rw [setHandlerSeq_br, setHandlerSeq_br]; exact h, ?_⟩
  unfold setHandlerSeq
  split
  · rfl
  · simp only
    split
    · rfl
    · split
      · rfl
      · split <;> split <;> rfl

theorem cmdSet_body_congr {c : Ctx} {br br' : Branches} (h : SameTags c.u br br') (s : Store) (argv : List Bytes)
    (key payload : Bytes) :
    SameRes c.u (cmdSet.body c br s argv key payload) (cmdSet.body c br' s argv key payload) := by
  unfold cmdSet.body
  rw [indexGet_congr h]
  have hns : ∀ e, (if key.length ≠ 0 then indexGet br' s c.u key else none) = some e → e.ns = c.u :=
    fun e he => setEntry_ns he
  generalize (if key.length ≠ 0 then indexGet br' s c.u key else none) = ex at hns
  dsimp only
  split
  · exact ⟨h, rfl⟩
  split
  · exact ⟨h, rfl⟩
  split
  · exact ⟨h, rfl⟩
  split
  · exact ⟨h, rfl⟩
  split
  · exact ⟨h, rfl⟩
  split
  · exact ⟨h, rfl⟩
  split
  · exact setHandlerUser_congr h _ _ _ _ _ hns
  · exact setHandlerSeq_congr h _ _ _ _ _

theorem cmdDel_body_congr {c : Ctx} {br br' : Branches} (h : SameTags c.u br br') (s : Store) (argv : List Bytes)
    (key : Bytes) : SameRes c.u (cmdDel.body c br s argv key) (cmdDel.body c br' s argv key) := by
  unfold cmdDel.body
  rw [indexGet_congr h]
  split
  · exact ⟨h, rfl⟩
  · split
    · exact ⟨h, rfl⟩
    · split
      · exact ⟨h, rfl⟩
      · split
        · exact ⟨h, rfl⟩
        · split
          · exact ⟨h, rfl⟩
          · rename_i e he
            split
            · exact ⟨h, rfl⟩
            · simp only
              split
              · exact ⟨h, rfl⟩
              · have := indexDelete_congr h (dataInsert s c.io e.id [] 1 0 (timestampFromSet c.now argv 2)).1 c.io e
                  (indexGet_ns he)
                simp only [this.rest]
                split <;> exact ⟨this.tags, rfl⟩

theorem getSingle_congr {c : Ctx} {br br' : Branches} (h : SameTags c.u br br') (s : Store) :
    getSingle c br s = getSingle c br' s := by
  funext k
  unfold getSingle
  rw [indexGet_congr h]

theorem kscanSel_congr {u : Nat} {br br' : Branches} (h : SameTags u br br') (n : Nat) (key : Bytes) :
    kscanSel br u n key = kscanSel br' u n key := by
  unfold kscanSel
  congr 1
  funext k
  have := h k
  unfold nsBranch at this
  have key : ∀ l : List Entry, l.filter (fun e => e.ns == u && key.isPrefixOf e.id) =
      (l.filter (fun e => e.ns == u)).filter (fun e => key.isPrefixOf e.id) := fun l => by
    rw [List.filter_filter]; congr 1; funext e; rw [Bool.and_comm]
  rw [key, key, this]

/-- A handler depends on the shared table only through the entries of its own namespace. -/
theorem dsCommand_congr {c : Ctx} {br br' : Branches} (h : SameTags c.u br br') (s : Store) (d : DsCmd)
    (argv : List Bytes) : SameRes c.u (dsCommand c br s d argv) (dsCommand c br' s d argv) := by
  cases d with
  | set =>
    unfold dsCommand cmdSet
    simp only
    split
    · exact cmdSet_body_congr h _ _ _ _
    · split
      · exact cmdSet_body_congr h _ _ _ _
      · exact ⟨h, rfl⟩
    · exact ⟨h, rfl⟩
  | del =>
    unfold dsCommand cmdDel
    simp only
    split
    · split
      · exact cmdDel_body_congr h _ _ _
      · exact ⟨h, rfl⟩
    · split
      · exact ⟨h, rfl⟩
      · split
        · exact cmdDel_body_congr h _ _ _
        · exact ⟨h, rfl⟩
  | get => exact ⟨h, by simp only [dsCommand, cmdGet, getSingle_congr h]⟩
  | mget => exact ⟨h, by simp only [dsCommand, cmdMget, getSingle_congr h]⟩
  | «exists» => exact ⟨h, by simp only [dsCommand, cmdExists, indexGet_congr h]⟩
  | check => exact ⟨h, by simp only [dsCommand, cmdCheck, indexGet_congr h]⟩
  | length => exact ⟨h, by simp only [dsCommand, cmdLength, indexGet_congr h]⟩
  | keytime => exact ⟨h, by simp only [dsCommand, cmdKeytime, indexGet_congr h]⟩
  | kscan => exact ⟨h, by simp only [dsCommand, cmdKscan, kscanSel_congr h]⟩
  | keycur => exact ⟨h, by simp only [dsCommand, cmdKeycur, indexGet_congr h]⟩
  | history => exact ⟨h, by simp only [dsCommand, cmdHistory, indexGet_congr h]⟩
  | nsjump => exact ⟨h, rfl⟩
  | index => exact ⟨h, rfl⟩
  | data => exact ⟨h, rfl⟩
  | scan => exact ⟨h, rfl⟩
  | rscan => exact ⟨h, rfl⟩
  | dbsize => exact ⟨h, rfl⟩

end Zdb
