/-
Under `--sync`, a user-key namespace has nothing outside the disk but deleted flags.
-/
import Verif.Lemmas.Sync
import Verif.Lemmas.UserRun
namespace Zdb

/-! ### partial writes -/

theorem pwrite_get {f : Bytes} {off : Nat} {b : Bytes} (h : off + b.length ≤ f.length) (p : Nat) :
    (pwrite f off b)[p]? = if off ≤ p ∧ p < off + b.length then b[p - off]? else f[p]? := by
  simp only [pwrite, show off - f.length = 0 by omega, List.replicate_zero, List.append_nil]
  by_cases h1 : p < off
  · rw [List.append_assoc, List.getElem?_append_left (by simp; omega), List.getElem?_take,
      if_pos h1, if_neg (by omega)]
  · by_cases h2 : p < off + b.length
    · rw [if_pos ⟨by omega, h2⟩, List.append_assoc, List.getElem?_append_right (by simp; omega),
        List.getElem?_append_left (by simp; omega)]
      congr 1
      simp; omega
    · rw [if_neg (by omega), List.getElem?_append_right (by simp; omega), List.getElem?_drop]
      congr 1
      simp; omega

theorem mem_byteWrites {w : Nat × Bytes} {y : Nat × UInt8} (h : y ∈ byteWrites w) :
    w.1 ≤ y.1 ∧ y.1 < w.1 + w.2.length ∧ w.2[y.1 - w.1]? = some y.2 := by
  simp only [byteWrites, List.mem_map] at h
  obtain ⟨⟨x, n⟩, hx, rfl⟩ := h
  have := List.mk_mem_zipIdx_iff_le_and_getElem?_sub.1 hx
  refine ⟨this.1, ?_, this.2⟩
  have := (List.getElem?_eq_some_iff.1 this.2).1
  omega

/-- Each byte of the outcome is the one of the last sync or the current one. -/
theorem Partly.between {f0 f g : Bytes} {ws : List (Nat × Bytes)} {h0 : Bytes} (hp : Partly h0 ws g)
    (hl : h0.length = f.length) (hb : ∀ p : Nat, h0[p]? = f0[p]? ∨ h0[p]? = f[p]?)
    (hw : ∀ w ∈ ws, w.1 + w.2.length ≤ f.length ∧ ∀ y ∈ byteWrites w, f0[y.1]? = some y.2 ∨ f[y.1]? = some y.2) :
    g.length = f.length ∧ ∀ p : Nat, g[p]? = f0[p]? ∨ g[p]? = f[p]? := by
  induction hp with
  | nil h0 => exact ⟨hl, hb⟩
  | @cons h0 g w ws l hs h ih =>
    obtain ⟨w1, w2⟩ := hw w (by simp)
    have key : ∀ (l : List (Nat × UInt8)) (h0 : Bytes), (∀ y ∈ l, y ∈ byteWrites w) →
        h0.length = f.length → (∀ p : Nat, h0[p]? = f0[p]? ∨ h0[p]? = f[p]?) →
        (l.foldl (fun b x => pwrite b x.1 [x.2]) h0).length = f.length ∧
          ∀ p : Nat, (l.foldl (fun b x => pwrite b x.1 [x.2]) h0)[p]? = f0[p]? ∨
            (l.foldl (fun b x => pwrite b x.1 [x.2]) h0)[p]? = f[p]? := by
      intro l
      induction l with
      | nil => intro h0 _ h1 h2; exact ⟨h1, h2⟩
      | cons y l ihl =>
        intro h0 hm h1 h2
        obtain ⟨y1, y2, y3⟩ := mem_byteWrites (hm y (by simp))
        have hle : y.1 + [y.2].length ≤ h0.length := by simp; omega
        refine ihl _ (fun z hz => hm z (by simp [hz])) (by rw [pwrite_length hle, h1]) ?_
        intro p
        rw [pwrite_get hle]
        by_cases hp : y.1 ≤ p ∧ p < y.1 + [y.2].length
        · rw [if_pos hp]
          have : p = y.1 := by simp at hp; omega
          subst this
          rcases w2 y (hm y (by simp)) with h3 | h3
          · left; simp [h3]
          · right; simp [h3]
        · rw [if_neg hp]; exact h2 p
    obtain ⟨k1, k2⟩ := key l h0 (fun y hy => hs.subset hy) hl hb
    exact ih k1 k2 (fun w' hw' => hw w' (by simp [hw']))

/-! ### one index file -/

/-- A record of the log has its flags at position `p` of index file `n`. -/
def FlagAt (G : Log) (n p : Nat) : Prop := ∃ l ∈ locs G, l.file = n ∧ p = l.off + 13

/-- `g` is `f` where some deleted flags are missing. -/
def Unflagged (G : Log) (n : Nat) (g f : Bytes) : Prop :=
  g.length = f.length ∧
    ∀ p : Nat, g[p]? = f[p]? ∨ (g[p]? = some 0 ∧ f[p]? = some 1 ∧ FlagAt G n p)

theorem Unflagged.refl (G : Log) (n : Nat) (f : Bytes) : Unflagged G n f f := ⟨rfl, fun _ => Or.inl rfl⟩

/-- The current contents of index file `n` are `f`, and all that may be missing on the disk are deleted flags. -/
structure IOk (G : Log) (n : Nat) (x : DFile) (f : Bytes) : Prop where
  cur : x.cur = f
  base : ∃ f0, x.safe = some f0 ∧ Unflagged G n f0 f ∧
    ∀ w ∈ x.pend, w.1 + w.2.length ≤ f.length ∧ ∀ y ∈ byteWrites w, f0[y.1]? = some y.2 ∨ f[y.1]? = some y.2

theorem IOk.synced (G : Log) (n : Nat) (f : Bytes) : IOk G n ⟨some f, []⟩ f :=
  ⟨rfl, f, rfl, Unflagged.refl G n f, by simp⟩

theorem IOk.sync {G : Log} {n : Nat} {x : DFile} {f : Bytes} (h : x.cur = f) : IOk G n x.sync f := by
  rw [DFile.sync, h]; exact IOk.synced G n f

theorem IOk.mono {G G' : Log} {n : Nat} {x : DFile} {f : Bytes} (h : IOk G n x f)
    (hG : ∀ p, FlagAt G n p → FlagAt G' n p) : IOk G' n x f := by
  obtain ⟨h1, f0, h2, ⟨h3, h4⟩, h5⟩ := h
  refine ⟨h1, f0, h2, ⟨h3, fun p => ?_⟩, h5⟩
  rcases h4 p with h | ⟨a, b, c⟩
  · exact Or.inl h
  · exact Or.inr ⟨a, b, hG p c⟩

theorem IOk.flag {G : Log} {n : Nat} {x : DFile} {f a c b : Bytes} {off : Nat} (h : IOk G n x f)
    (hf : f = a ++ (0 :: c)) (hf' : pwrite f off b = a ++ (1 :: c)) (hb : off + b.length ≤ f.length)
    (hG : FlagAt G n a.length) : IOk G n (x.put off b) (pwrite f off b) := by
  obtain ⟨h1, f0, h2, ⟨h3, h4⟩, h5⟩ := h
  have hlen : (pwrite f off b).length = f.length := pwrite_length hb
  have h0 : f[a.length]? = some 0 := by rw [hf]; simp
  have h1' : (pwrite f off b)[a.length]? = some 1 := by rw [hf']; simp
  have hother : ∀ p, p ≠ a.length → (pwrite f off b)[p]? = f[p]? := by
    intro p hp
    rw [hf', hf]
    by_cases hlt : p < a.length
    · rw [List.getElem?_append_left hlt, List.getElem?_append_left hlt]
    · rw [List.getElem?_append_right (by omega), List.getElem?_append_right (by omega)]
      obtain ⟨q, hq⟩ : ∃ q, p - a.length = q + 1 := ⟨p - a.length - 1, by omega⟩
      rw [hq]; rfl
  have h00 : f0[a.length]? = some 0 := by
    rcases h4 a.length with h | ⟨h, _, _⟩
    · rw [h, h0]
    · exact h
  refine ⟨by rw [DFile.cur_put, h1], f0, h2, ⟨by omega, fun p => ?_⟩, ?_⟩
  · by_cases hp : p = a.length
    · subst hp
      exact Or.inr ⟨h00, h1', hG⟩
    · rw [hother p hp]; exact h4 p
  · intro w hw
    simp only [DFile.put, List.mem_append, List.mem_singleton] at hw
    rcases hw with hw | rfl
    · obtain ⟨w1, w2⟩ := h5 w hw
      refine ⟨by omega, fun y hy => ?_⟩
      rcases w2 y hy with h | h
      · exact Or.inl h
      · by_cases hp : y.1 = a.length
        · left
          rw [hp] at h ⊢
          rw [h0] at h
          rw [h00, ← h]
        · right; rw [hother _ hp]; exact h
    · refine ⟨by simpa [hlen] using hb, fun y hy => ?_⟩
      obtain ⟨y1, y2, y3⟩ := mem_byteWrites hy
      right
      simp only at y1 y2 y3
      rw [pwrite_get hb, if_pos ⟨y1, y2⟩]
      exact y3

theorem IOk.survives {G : Log} {n : Nat} {x : DFile} {f : Bytes} (h : IOk G n x f) {o : Option Bytes}
    (hs : Survives x o) : ∃ g, o = some g ∧ Unflagged G n g f := by
  obtain ⟨h1, f0, h2, ⟨h3, h4⟩, h5⟩ := h
  cases hs with
  | kept hp =>
    rename_i g
    rw [h2, Option.getD_some] at hp
    obtain ⟨k1, k2⟩ := hp.between (f := f) h3 (fun _ => Or.inl rfl) h5
    refine ⟨g, rfl, k1, fun p => ?_⟩
    rcases k2 p with k | k
    · rcases h4 p with h | ⟨a, b, c⟩
      · left; rw [k, h]
      · right; exact ⟨by rw [k, a], b, c⟩
    · exact Or.inl k
  | gone hn => rw [h2] at hn; cases hn

/-! ### the files of a namespace -/

/-- A file that is entirely on the disk. -/
def DFile.solid (f : Bytes) : DFile := ⟨some f, []⟩

/-- Under `--sync`: all of the data files is on the disk, and all of the index files but deleted flags. -/
structure DInv (D : Disk) (s : Store) (G : Log) : Prop where
  d : D.d = s.dfiles.map DFile.solid
  ilen : D.i.length = s.ifiles.length
  idx : ∀ (n : Nat) (x : DFile) (f : Bytes), D.i[n]? = some x → s.ifiles[n]? = some f → IOk G n x f

theorem DInv.congr {D : Disk} {s t : Store} {G : Log} (h : DInv D s G) (h1 : t.files = s.files) : DInv D t G := by
  have e1 : t.ifiles = s.ifiles := congrArg Prod.fst h1
  have e2 : t.dfiles = s.dfiles := congrArg Prod.snd h1
  exact ⟨by rw [e2]; exact h.d, by rw [e1]; exact h.ilen, by rw [e1]; exact h.idx⟩

theorem DInv.mono {D : Disk} {s : Store} {G G' : Log} (h : DInv D s G)
    (hG : ∀ n p, FlagAt G n p → FlagAt G' n p) : DInv D s G' :=
  ⟨h.d, h.ilen, fun n x f h1 h2 => (h.idx n x f h1 h2).mono (hG n)⟩

theorem DInv.fresh {cf : SyncConf} (hcf : cf.sync = true) (t : Nat) (m : Mode) (G : Log) :
    DInv (Disk.fresh cf t m) (freshStore m) G := by
  have hdue : ∀ a b, cf.due a b = true := fun a b => by simp [SyncConf.due, hcf]
  have e : Disk.fresh cf t m =
      ⟨(freshStore m).ifiles.map DFile.solid, (freshStore m).dfiles.map DFile.solid, t, t⟩ := by
    simp only [Disk.fresh, createOps, dataInitializeOps, List.length_nil, Nat.lt_irrefl, if_false, runOps,
      List.foldl_append, List.foldl_cons, List.foldl_nil, Op.run, hdue, if_true, Disk.on, Disk.fsync]
    cases m <;> rfl
  rw [e]
  refine ⟨rfl, by simp, ?_⟩
  intro n x f h1 h2
  simp only [List.getElem?_map, h2, Option.map_some, Option.some.injEq] at h1
  rw [← h1]; exact IOk.synced G n f

/-- Changing one index file. -/
theorem DInv.modify {D : Disk} {s : Store} {G : Log} (h : DInv D s G) (n : Nat) (a : DFile → DFile)
    (b : Bytes → Bytes) (il dl : Nat)
    (hab : ∀ x f, D.i[n]? = some x → s.ifiles[n]? = some f → IOk G n x f → IOk G n (a x) (b f)) :
    DInv { i := D.i.modify n a, d := D.d, ilast := il, dlast := dl }
      { s with ifiles := s.ifiles.modify n b } G := by
  refine ⟨h.d, by simp [h.ilen], ?_⟩
  intro m x f h1 h2
  simp only [List.getElem?_modify, Option.map_eq_map] at h1 h2
  cases hx : D.i[m]? with
  | none => simp [hx] at h1
  | some x0 =>
    cases hf : s.ifiles[m]? with
    | none => simp [hf] at h2
    | some f0 =>
      simp only [hx, hf, Option.map_some, Option.some.injEq] at h1 h2
      by_cases hm : n = m
      · subst hm
        simp only [if_true] at h1 h2
        rw [← h1, ← h2]
        exact hab x0 f0 hx hf (h.idx n x0 f0 hx hf)
      · simp only [if_neg hm] at h1 h2
        rw [← h1, ← h2]
        exact h.idx m x0 f0 hx hf

theorem due_sync {cf : SyncConf} (h : cf.sync = true) (a b : Nat) : cf.due a b = true := by
  simp [SyncConf.due, h]

theorem modify_solid (l : List Bytes) (n : Nat) (A B C : DFile → DFile) (g : Bytes → Bytes)
    (h : ∀ f, C (B (A (DFile.solid f))) = DFile.solid (g f)) :
    (((l.map DFile.solid).modify n A).modify n B).modify n C = (l.modify n g).map DFile.solid := by
  induction l generalizing n with
  | nil => simp
  | cons f l ih =>
    cases n with
    | zero => simp [h]
    | succ n => simp [ih n]

theorem DInv.dataInsert {D : Disk} {s : Store} {G : Log} (h : DInv D s G) {cf : SyncConf} (hcf : cf.sync = true)
    (now : Nat) {io : Io} (hio : (io.dhdr.ok && io.dpay.ok) = true) (k p : Bytes) (fl crc ts : Nat) :
    DInv (runOps cf now D (dataInsertOps s io k p fl crc ts)) (dataInsert s io k p fl crc ts).1 G := by
  rw [Bool.and_eq_true] at hio
  unfold dataInsertOps Zdb.dataInsert
  simp only [hio.1, hio.2, Bool.not_true, Bool.false_eq_true, if_false]
  simp only [runOps, List.foldl_cons, List.foldl_nil, Op.run, Disk.on, due_sync hcf, if_true, Disk.fsync]
  refine ⟨?_, h.ilen, h.idx⟩
  simp only [h.d]
  apply modify_solid
  intro f
  have e1 : (DFile.solid f).cur = f := rfl
  simp only [DFile.sync, DFile.cur_put, e1, pwrite_end, List.append_assoc]
  rfl

theorem DInv.appendEntry {D : Disk} {s : Store} {G : Log} (h : DInv D s G) {cf : SyncConf} (hcf : cf.sync = true)
    (now : Nat) {io : Io} (hio : io.iapp = none) (e : Entry) :
    DInv (runOps cf now D (appendEntryOps s io e)) (appendEntry s io e).1 G := by
  unfold appendEntryOps Zdb.appendEntry
  simp only [hio, WriteFault.ok, Option.isNone_none, if_true, cut_none]
  simp only [runOps, List.foldl_cons, List.foldl_nil, Op.run, Disk.on, due_sync hcf, if_true, Disk.fsync]
  generalize encItem _ = b
  have := h.modify s.indexid (fun x => (x.put x.cur.length b).sync) (· ++ b) now D.dlast (by
    intro x f _ _ hi
    apply IOk.sync
    rw [DFile.cur_put, pwrite_end, hi.cur])
  have e1 : (D.i.modify s.indexid (fun f => f.put f.cur.length b)).modify s.indexid DFile.sync =
      D.i.modify s.indexid (fun x => (x.put x.cur.length b).sync) := by
    rw [List.modify_modify_eq]; rfl
  rw [e1]
  exact this.congr rfl

theorem DInv.jump {D : Disk} {s : Store} {G : Log} (h : DInv D s G) {mode : Nat} {df : Loc → Nat}
    (hc : Core mode df s G) (hm : s.mode.byte = mode) (hcap : G.length < 2 ^ 32) {cf : SyncConf}
    (hcf : cf.sync = true) (now : Nat) : DInv (runOps cf now D (jumpOps s)) (jump s) G := by
  have hid : (s.indexid + 1) % 2 ^ 32 = G.length := by rw [hc.iid, Nat.mod_eq_of_lt hcap]
  have hil := hc.irep.length
  obtain ⟨-, j1, j2, -⟩ := hc.jump hm hcap
  unfold jumpOps indexCreateOps dataInitializeOps
  simp only [hid, hil, hc.dlen, Nat.lt_irrefl, if_false, hm]
  -- an optional sync of a file changes nothing
  obtain ⟨D1, hD1, h1⟩ : ∃ D1, runOps cf now D [.secure .index s.indexid] = D1 ∧ DInv D1 s G := by
    refine ⟨_, rfl, ?_⟩
    simp only [runOps, List.foldl_cons, List.foldl_nil, Op.run, Disk.on]
    split
    · have := h.modify s.indexid DFile.sync (fun f => f) D.ilast D.dlast (fun x f _ _ hi => IOk.sync hi.cur)
      exact this.congr (by simp [Store.files, modify_id_of])
    · exact h
  rw [runOps_append, runOps_append, runOps_append, hD1]
  obtain ⟨hd, hl, hx⟩ := h1
  have hl' : D1.i.length = G.length := by rw [hl, hil]
  have hdl : D1.d.length = G.length := by rw [hd, List.length_map, hc.dlen]
  generalize hhi : encIHeader (freshIHeader G.length mode) = hi
  generalize hhd : encDFHeader (freshDFHeader G.length) = hdd
  rw [hhi] at j2
  rw [hhd] at j1
  have hcr : ∀ (b : Bytes), DFile.sync { safe := none, pend := [(0, b)] } = DFile.solid b := by
    intro b; simp [DFile.sync, DFile.cur, pwrite, DFile.solid]
  have hmod : ∀ (l : List DFile) (b : Bytes) (n : Nat), l.length = n →
      (l ++ [({ safe := none, pend := [(0, b)] } : DFile)]).modify n DFile.sync = l ++ [DFile.solid b] := by
    intro l b n hn
    subst hn
    induction l with
    | nil => simp [hcr]
    | cons x l ih => simp [ih]
  have e2 : runOps cf now D1 [.create .index hi, .check .index G.length] =
      { D1 with i := D1.i ++ [DFile.solid hi], ilast := now } := by
    simp only [runOps, List.foldl_cons, List.foldl_nil, Op.run, Disk.on, due_sync hcf, if_true, Disk.fsync]
    rw [hmod _ _ _ hl']
  rw [e2]
  obtain ⟨D3, hD3, h3i, h3d⟩ : ∃ D3, runOps cf now { D1 with i := D1.i ++ [DFile.solid hi], ilast := now }
      [.secure .data s.dataid] = D3 ∧ D3.i = D1.i ++ [DFile.solid hi] ∧ D3.d = D1.d := by
    refine ⟨_, rfl, ?_⟩
    simp only [runOps, List.foldl_cons, List.foldl_nil, Op.run, Disk.on]
    split
    · refine ⟨rfl, ?_⟩
      simp only [hd]
      have := modify_solid s.dfiles s.dataid (fun x => x) (fun x => x) DFile.sync (fun f => f) (fun f => rfl)
      rw [modify_id_of, modify_id_of, modify_id_of] at this
      exact this
    · exact ⟨rfl, rfl⟩
  rw [hD3]
  have e4 : runOps cf now D3 [.create .data hdd, .check .data G.length] =
      { D3 with d := D3.d ++ [DFile.solid hdd], dlast := now } := by
    simp only [runOps, List.foldl_cons, List.foldl_nil, Op.run, Disk.on, due_sync hcf, if_true, Disk.fsync]
    rw [hmod D3.d hdd G.length (by rw [h3d, hdl])]
  rw [e4]
  refine ⟨?_, ?_, ?_⟩
  · simp only [h3d, hd, j1, List.map_append, List.map_cons, List.map_nil]
  · simp only [h3i, j2, List.length_append, hl, List.length_singleton]
  · intro n x f n1 n2
    simp only [h3i] at n1
    rw [j2] at n2
    by_cases hn : n < G.length
    · rw [List.getElem?_append_left (by omega)] at n1 n2
      exact hx n x f n1 n2
    · rw [List.getElem?_append_right (by omega)] at n1 n2
      obtain ⟨rfl⟩ : n = G.length := by
        have := (List.getElem?_eq_some_iff.1 n1).1
        simp at this; omega
      simp [hl'] at n1
      simp [hil] at n2
      rw [← n1, ← n2]
      exact IOk.synced _ _ _

theorem encItem_kill {r : Rec} (h : r.item.flags = 0) : ∃ a c, a.length = 13 ∧
    encItem r.item = a ++ (0 :: c) ∧ encItem r.kill.item = a ++ (1 :: c) := by
  refine ⟨toLE 1 r.item.idlength ++ (toLE 4 r.item.offset ++ (toLE 4 r.item.length ++ toLE 4 r.item.previous)),
    toLE 4 r.item.dataid ++ (toLE 4 r.item.timestamp ++ (toLE 4 r.item.crc ++
      (toLE 4 r.item.parentid ++ (toLE 4 r.item.parentoff ++ r.item.id)))), by simp, ?_, ?_⟩
  · rw [encItem, h]
    simp only [List.append_assoc, List.append_cancel_left_eq]
    rfl
  · rw [encItem, Rec.kill]
    simp only [List.append_assoc, List.append_cancel_left_eq]
    rfl

theorem DInv.deleteDisk {D : Disk} {br : Branches} {u : Nat} {s : Store} {G : Log} (h : DInv D s G)
    (hu : UInv br u s G) {l : Loc} (hl : l ∈ live G) {io : Io} (hio : io.iflag = none) (cf : SyncConf) (now : Nat) :
    DInv (runOps cf now D (deleteDiskOps s io (l.entry u))) (deleteDisk s io (l.entry u)).1 G := by
  obtain ⟨pre, post, f1, f2⟩ := hu.irep.at (live_mem hl)
  have hfl := live_flag hu hl
  have hset : setItemFlags (encItem l.r.item) (setDeleted l.r.item.flags) = encItem l.r.kill.item := by
    rw [setItemFlags_encItem, hfl]; rfl
  have hrd : readExact (pre ++ (encItem l.r.item ++ post)) l.off (itemHdr + l.r.item.id.length) =
      some (encItem l.r.item) := readExact_at rfl f2.symm (by simp [itemHdr])
  obtain ⟨A, B, G1, g1, g2, G2, hs, k1, ⟨d, k2⟩, -⟩ := hu.killItem hl io hio
  have hops : deleteDiskOps s io (l.entry u) = [.write .index l.file l.off (encItem l.r.kill.item)] := by
    simp only [deleteDiskOps, Loc.entry, f1, hrd, hio, cut_none, hset]
  rw [hops, k2]
  simp only [runOps, List.foldl_cons, List.foldl_nil, Op.run, Disk.on]
  obtain ⟨a, c, a1, a2, a3⟩ := encItem_kill hfl
  have := h.modify l.file (fun x => x.put l.off (encItem l.r.kill.item))
    (fun f => pwrite f l.off (encItem l.r.kill.item)) D.ilast D.dlast (by
      intro x f _ hf hi
      rw [f1] at hf
      cases hf
      refine hi.flag (a := pre ++ a) (c := c ++ post) (by rw [a2]; simp) ?_ ?_ ?_
      · rw [pwrite_at' rfl f2.symm (by simp [Rec.kill]), a3]; simp
      · simp [Rec.kill]; omega
      · refine ⟨l, live_mem hl, rfl, ?_⟩
        rw [List.length_append, f2, a1])
  exact this.congr rfl

/-! ### commands -/

/-- No write fails. -/
structure GoodIo (c : Ctx) : Prop where
  dhdr : c.io.dhdr = none
  dpay : c.io.dpay = none
  iapp : c.io.iapp = none
  iflag : c.io.iflag = none

theorem GoodIo.data {c : Ctx} (h : GoodIo c) : (c.io.dhdr.ok && c.io.dpay.ok) = true := by
  simp [h.dhdr, h.dpay, WriteFault.ok]

theorem DInv.setHandler {D : Disk} {c : Ctx} {br : Branches} {s : Store} {G : Log} (h : DInv D s G)
    (hu : UInv br c.u s G) {cf : SyncConf} (hcf : cf.sync = true) (now : Nat) (hio : GoodIo c) (k p : Bytes)
    (ts : Nat) :
    DInv (runOps cf now D (setHandlerUserOps c s k p ts ((liveGet G k).map (Loc.entry c.u))))
      (setHandlerUser c br s k p ts ((liveGet G k).map (Loc.entry c.u))).2.1 G := by
  have hfiles := setHandlerUser_files c br s k p ts ((liveGet G k).map (Loc.entry c.u))
  unfold setHandlerUserOps at hfiles ⊢
  unfold setHandlerUser at hfiles ⊢
  by_cases hk : k.length = 0
  · simp only [if_pos hk]; exact h
  simp only [if_neg hk] at hfiles ⊢
  by_cases hup : upToDate s ((liveGet G k).map (Loc.entry c.u)) p = true
  · simp only [if_pos hup]; exact h
  simp only [if_neg hup] at hfiles ⊢
  have h1 := h.dataInsert hcf now hio.data k p 0 (crc32 p) ts
  obtain ⟨b, prev, -, hw⟩ := (dataInsert_ok (s := s) hio.data hu.dataFile k p 0 (crc32 p) ts rfl).eq
  have hu1 : UInv br c.u (Zdb.dataInsert s c.io k p 0 (crc32 p) ts).1 G := by
    rw [hw]; exact hu.appendData b prev
  clear hfiles hw
  rw [runOps_append]
  generalize Zdb.dataInsert s c.io k p 0 (crc32 p) ts = t at h1 hu1 ⊢
  obtain ⟨t, off⟩ := t
  simp only at h1 hu1 ⊢
  by_cases hoff : off = 0
  · simp only [if_pos hoff]; exact h1
  simp only [if_neg hoff]
  cases hg : liveGet G k with
  | none =>
    simp only [Option.map_none]
    have h2 := h1.appendEntry hcf now hio.iapp (SetReq.entry ⟨k, off, p.length, crc32 p, 0, ts⟩ c.u)
    refine h2.congr ?_
    rw [← appendEntry_files, insertUser_sync br]
    generalize insertUser br t c.u c.io _ = x
    obtain ⟨_, _, ok⟩ := x
    cases ok <;> rfl
  | some l =>
    simp only [Option.map_some, updateUserOps]
    have h2 := h1.deleteDisk hu1 (liveGet_some hg).1 hio.iflag cf now
    rw [runOps_append]
    have h3 := (h2.congr (t := updateStats (Zdb.deleteDisk t c.io (l.entry c.u)).1 (l.entry c.u)
      (SetReq.entry ⟨k, off, p.length, crc32 p, 0, ts⟩ c.u)) rfl).appendEntry hcf now hio.iapp
      (updatedEntry (Zdb.deleteDisk t c.io (l.entry c.u)).1 (l.entry c.u)
        (SetReq.entry ⟨k, off, p.length, crc32 p, 0, ts⟩ c.u))
    refine h3.congr ?_
    have e1 := updateUser_files br t c.u c.io ⟨k, off, p.length, crc32 p, 0, ts⟩ (l.entry c.u)
    rw [updateUserOps, opsFiles_append, deleteDisk_files] at e1
    have e2 := appendEntry_files (updateStats (Zdb.deleteDisk t c.io (l.entry c.u)).1 (l.entry c.u)
      (SetReq.entry ⟨k, off, p.length, crc32 p, 0, ts⟩ c.u)) c.io
      (updatedEntry (Zdb.deleteDisk t c.io (l.entry c.u)).1 (l.entry c.u)
        (SetReq.entry ⟨k, off, p.length, crc32 p, 0, ts⟩ c.u))
    rw [← e2]
    refine Eq.trans ?_ e1.symm
    generalize updateUser br t c.u c.io _ _ = x
    obtain ⟨_, _, ok⟩ := x
    cases ok <;> rfl

theorem FlagAt.jump {G : Log} {n p : Nat} (h : FlagAt (logJump G) n p) : FlagAt G n p := by
  simpa only [FlagAt, locs_jump] using h

theorem DInv.setBody {D : Disk} {c : Ctx} {br : Branches} {s : Store} {G : Log} (h : DInv D s G)
    (hu : UInv br c.u s G) {cf : SyncConf} (hcf : cf.sync = true) (now : Nat) (hio : GoodIo c)
    (hcap : s.ifiles.length < 2 ^ 32) (argv : List Bytes) (k p : Bytes) :
    DInv (runOps cf now D (cmdSetOps.body c br s argv k p)) (cmdSet.body c br s argv k p).2.1 G := by
  unfold cmdSetOps.body cmdSet.body
  split
  · exact h
  split
  · exact h
  split
  · exact h
  split
  · exact h
  simp only
  have hentry : (if k.length ≠ 0 then indexGet br s c.u k else none) =
      (liveGet G k).map (Loc.entry c.u) := by
    by_cases h0 : k.length = 0
    · rw [List.length_eq_zero_iff.1 h0]; simp [liveGet_nil hu]
    · rw [if_pos h0, hu.indexGet]
  rw [hentry]
  split
  · exact h
  split
  · exact h
  rw [runOps_append]
  have hil := hu.irep.length
  simp only [hu.mode]
  unfold jumpIfFullOps jumpIfFull
  split
  · have h1 := h.jump hu.toCore (by rw [hu.mode]; rfl) (by omega) hcf now
    have hu1 := hu.jump (by omega)
    have h2 := (h1.mono (G' := logJump G) (fun n p hp => by simpa only [FlagAt, locs_jump] using hp)).setHandler
      hu1 hcf now hio k p (timestampFromSet c.now argv 3)
    have e : liveGet (logJump G) k = liveGet G k := by rw [liveGet, live_jump]; rfl
    rw [e] at h2
    exact h2.mono (fun n p hp => hp.jump)
  · exact h.setHandler hu hcf now hio k p _

theorem DInv.delBody {D : Disk} {c : Ctx} {br : Branches} {s : Store} {G : Log} (h : DInv D s G)
    (hu : UInv br c.u s G) {cf : SyncConf} (hcf : cf.sync = true) (now : Nat) (hio : GoodIo c)
    (argv : List Bytes) (k : Bytes) :
    DInv (runOps cf now D (cmdDelOps.body c br s argv k)) (cmdDel.body c br s argv k).2.1 G := by
  unfold cmdDelOps.body cmdDel.body
  split
  · exact h
  split
  · exact h
  split
  · exact h
  split
  · exact h
  rw [hu.indexGet]
  cases hg : liveGet G k with
  | none => exact h
  | some l =>
    simp only [Option.map_some]
    split
    · exact h
    have h1 := h.dataInsert hcf now hio.data (l.entry c.u).id [] 1 0 (timestampFromSet c.now argv 2)
    obtain ⟨b, prev, -, hw⟩ := (dataInsert_ok (s := s) hio.data hu.dataFile (l.entry c.u).id [] 1 0
      (timestampFromSet c.now argv 2) rfl).eq
    have hu1 : UInv br c.u (Zdb.dataInsert s c.io (l.entry c.u).id [] 1 0 (timestampFromSet c.now argv 2)).1 G := by
      rw [hw]; exact hu.appendData b prev
    clear hw
    rw [runOps_append]
    generalize Zdb.dataInsert s c.io (l.entry c.u).id [] 1 0 (timestampFromSet c.now argv 2) = t at h1 hu1 ⊢
    obtain ⟨t, off⟩ := t
    simp only at h1 hu1 ⊢
    by_cases hoff : off = 0
    · simp only [if_pos hoff]; exact h1
    simp only [if_neg hoff]
    have h2 := h1.deleteDisk hu1 (liveGet_some hg).1 hio.iflag cf now
    refine h2.congr ?_
    rw [← indexDelete_files br t c.u c.io]
    generalize indexDelete br t c.u c.io _ = x
    obtain ⟨_, _, ok⟩ := x
    cases ok <;> rfl

/-- One command. -/
theorem DInv.command {D : Disk} {c : Ctx} {br : Branches} {s : Store} {G : Log} (h : DInv D s G)
    (hu : UInv br c.u s G) {cf : SyncConf} (hcf : cf.sync = true) (now : Nat) (hio : GoodIo c)
    (hcap : s.ifiles.length < 2 ^ 32) (d : DsCmd) (argv : List Bytes) :
    DInv (runOps cf now D (dsOps c br s d argv)) (dsCommand c br s d argv).2.1 G := by
  have hil := hu.irep.length
  cases d with
  | set =>
    simp only [dsOps, dsCommand]
    unfold cmdSetOps cmdSet
    match argv with
    | [] => exact h
    | [_] => exact h
    | [_, _] => exact h
    | [_, _, _] => exact h.setBody hu hcf now hio hcap ..
    | [_, _, _, _] =>
      simp only
      split
      · exact h.setBody hu hcf now hio hcap ..
      · exact h
    | _ :: _ :: _ :: _ :: _ :: _ => exact h
  | del =>
    simp only [dsOps, dsCommand]
    unfold cmdDelOps cmdDel
    match argv with
    | [] => exact h
    | [_] => exact h
    | [a, k] =>
      simp only
      cases argsValidate [a, k] 2 with
      | none => exact h.delBody hu hcf now hio ..
      | some _ => exact h
    | [_, _, _] =>
      simp only
      split
      · exact h.delBody hu hcf now hio ..
      · exact h
    | a :: b :: x :: y :: l =>
      simp only
      cases argsValidate (a :: b :: x :: y :: l) 2 <;> exact h
  | nsjump =>
    simp only [dsOps, dsCommand, cmdNsjump]
    split
    · exact h.jump hu.toCore (by rw [hu.mode]; rfl) (by omega) hcf now
    · exact h
  | index =>
    simp only [dsOps, dsCommand]
    rcases cmdIndex_cases c s argv with hx | hx <;> rw [hx] <;> exact h.congr rfl
  | _ => exact h

/-- Loading the namespace again. -/
theorem DInv.load {D : Disk} {br : Branches} {u : Nat} {s s' : Store} {G : Log} (h : DInv D s G)
    (hu : UInv br u s G) {cf : SyncConf} (hcf : cf.sync = true) (now : Nat) (he : s'.files = s.files) :
    DInv (runOps cf now D (loadOps s.ifiles s.dfiles)) s' G := by
  refine DInv.congr (s := s) ?_ he
  unfold loadOps
  rw [runOps_append]
  have hil := hu.irep.length
  have key : ∀ (l : List (Bytes × Nat)) (D : Disk), (∀ x ∈ l, s.ifiles[x.2]? = some x.1) → DInv D s G →
      DInv (runOps cf now D (l.flatMap (fun x =>
        [Op.write .index x.2 0 (encIHeader { decIHeader x.1 with opened := 0 }), Op.check .index x.2]))) s G := by
    intro l
    induction l with
    | nil => intro D _ hD; exact hD
    | cons x l ih =>
      intro D hx hD
      rw [List.flatMap_cons, runOps_append]
      refine ih _ (fun y hy => hx y (by simp [hy])) ?_
      have hf := hx x (by simp)
      simp only [runOps, List.foldl_cons, List.foldl_nil, Op.run, Disk.on, due_sync hcf, if_true, Disk.fsync]
      rw [List.modify_modify_eq]
      have hsame : pwrite x.1 0 (encIHeader { decIHeader x.1 with opened := 0 }) = x.1 := by
        have hg := hu.irep.get x.2
        rw [hf] at hg
        cases hgg : G[x.2]? with
        | none => rw [hgg] at hg; cases hg
        | some g =>
          rw [hgg, Option.map_some, Option.some.injEq] at hg
          have hlt := (List.getElem?_eq_some_iff.1 hgg).1
          have hfl := hu.files
          rw [hg, decIHeader_encFile 0 x.2 (by decide) (by omega) g]
          exact pwrite_same _ _
      have := hD.modify x.2 (DFile.sync ∘ fun f => f.put 0 (encIHeader { decIHeader x.1 with opened := 0 }))
        (fun f => f) now D.dlast (by
          intro y f _ hf' hi
          rw [hf] at hf'
          cases hf'
          apply IOk.sync
          rw [DFile.cur_put, hi.cur, hsame])
      exact this.congr (by simp [Store.files, modify_id_of])
  have h1 := key s.ifiles.zipIdx D (by
    intro x hx
    obtain ⟨a, n⟩ := x
    have := List.mk_mem_zipIdx_iff_getElem?.1 hx
    exact this) h
  generalize runOps cf now D _ = D1 at h1
  unfold dataInitializeOps
  have hne := hu.ne
  have hpos : 0 < G.length := List.length_pos_iff.2 hne
  have hlt : s.ifiles.length - 1 < s.dfiles.length := by rw [hil, hu.dlen]; omega
  simp only [if_pos hlt]
  simp only [runOps, List.foldl_cons, List.foldl_nil, Op.run, Disk.on, due_sync hcf, if_true, Disk.fsync]
  refine ⟨?_, h1.ilen, h1.idx⟩
  simp only [h1.d]
  obtain ⟨t, ht⟩ := hu.dhead _ _ (List.getElem?_eq_getElem hlt)
  generalize encDFHeader _ = hdr at ht ⊢
  have hgen : ∀ (l : List Bytes) (n : Nat), (∀ f, l[n]? = some f → pwrite f 0 hdr = f) →
      ((l.map DFile.solid).modify n (fun f => f.put 0 hdr)).modify n DFile.sync = l.map DFile.solid := by
    intro l
    induction l with
    | nil => intro n _; simp
    | cons f l ih =>
      intro n hn
      cases n with
      | zero =>
        have := hn f rfl
        simp only [List.map_cons, List.modify_zero_cons, DFile.sync, DFile.cur_put]
        have e : (DFile.solid f).cur = f := rfl
        rw [e, this]; rfl
      | succ n => simpa using ih n (by simpa using hn)
  apply hgen
  intro f hf
  rw [List.getElem?_eq_getElem hlt, Option.some.injEq] at hf
  rw [← hf, ht]
  exact pwrite_same _ _

end Zdb
