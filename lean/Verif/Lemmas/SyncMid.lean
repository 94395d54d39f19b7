/-
A power loss in the middle of a command under `--sync`.
-/
import Verif.Lemmas.SyncRun
namespace Zdb

/-! ### a data file to which something is added -/

theorem pwrite_tail (f t b : Bytes) {off : Nat} (h : f.length ≤ off) : pwrite (f ++ t) off b = f ++ pwrite t (off - f.length) b := by
  unfold pwrite
  rw [List.take_append, List.take_of_length_le h, List.length_append, List.drop_append,
    List.drop_eq_nil_of_le (as := f) (by omega), List.nil_append, show off - (f.length + t.length) = off - f.length - t.length by omega,
    show off + b.length - f.length = off - f.length + b.length by omega]
  simp only [List.append_assoc]

theorem Partly.tail {f t g : Bytes} {ws : List (Nat × Bytes)} (h : Partly (f ++ t) ws g) (hw : ∀ w ∈ ws, f.length ≤ w.1) :
    ∃ b, g = f ++ b := by
  generalize hh : f ++ t = h0 at h
  induction h generalizing t with
  | nil h0 => exact ⟨t, hh.symm⟩
  | @cons h0 g w ws l hs _ ih =>
    have key : ∀ (l : List (Nat × UInt8)) (t : Bytes), (∀ y ∈ l, y ∈ byteWrites w) →
        ∃ t', l.foldl (fun b x => pwrite b x.1 [x.2]) (f ++ t) = f ++ t' := by
      intro l
      induction l with
      | nil => intro t _; exact ⟨t, rfl⟩
      | cons y l ihl =>
        intro t hm
        have hy := mem_byteWrites (hm y (by simp))
        have := hw w (by simp)
        rw [List.foldl_cons, pwrite_tail _ _ _ (by omega)]
        exact ihl _ (fun z hz => hm z (by simp [hz]))
    obtain ⟨t', ht'⟩ := key l t (fun y hy => hs.subset hy)
    subst hh
    exact ih (fun w' hw' => hw w' (by simp [hw'])) ht'.symm

/-- The file `f` is on the disk and only what is behind it may change. -/
def Tail (f : Bytes) (x : DFile) : Prop := ∃ t, x.safe = some (f ++ t) ∧ ∀ w ∈ x.pend, f.length ≤ w.1

theorem Tail.solid (f : Bytes) : Tail f (DFile.solid f) := ⟨[], by simp [DFile.solid], by simp [DFile.solid]⟩

theorem pwrite_foldl_tail (f : Bytes) (ws : List (Nat × Bytes)) (hw : ∀ w ∈ ws, f.length ≤ w.1) (t : Bytes) :
    ∃ t', ws.foldl (fun b w => pwrite b w.1 w.2) (f ++ t) = f ++ t' := by
  induction ws generalizing t with
  | nil => exact ⟨t, rfl⟩
  | cons w ws ih =>
    rw [List.foldl_cons, pwrite_tail _ _ _ (hw w (by simp))]
    exact ih (fun w' hw' => hw w' (by simp [hw'])) _

theorem Tail.cur {f : Bytes} {x : DFile} (h : Tail f x) : ∃ t, x.cur = f ++ t := by
  obtain ⟨t, h1, h2⟩ := h
  unfold DFile.cur
  rw [h1, Option.getD_some]
  exact pwrite_foldl_tail f _ h2 t

theorem Tail.append {f : Bytes} {x : DFile} (h : Tail f x) (b : Bytes) : Tail f (x.put x.cur.length b) := by
  obtain ⟨c, hc⟩ := h.cur
  obtain ⟨t, h1, h2⟩ := h
  refine ⟨t, h1, fun w hw => ?_⟩
  simp only [DFile.put, List.mem_append, List.mem_singleton] at hw
  rcases hw with hw | rfl
  · exact h2 w hw
  · simp only [hc, List.length_append]; omega

theorem Tail.sync {f : Bytes} {x : DFile} (h : Tail f x) : Tail f x.sync := by
  obtain ⟨c, hc⟩ := h.cur
  exact ⟨c, by rw [DFile.sync, hc], by simp [DFile.sync]⟩

theorem Tail.survives {f : Bytes} {x : DFile} (h : Tail f x) {o : Option Bytes} (hs : Survives x o) : ∃ b, o = some (f ++ b) := by
  obtain ⟨t, h1, h2⟩ := h
  cases hs with
  | kept hp =>
    rw [h1, Option.getD_some] at hp
    obtain ⟨b, rfl⟩ := hp.tail h2
    exact ⟨b, rfl⟩
  | gone hn => rw [h1] at hn; cases hn

/-- A disk that differs from `D` by what was added to the current data file. -/
structure DataMid (D : Disk) (s : Store) (D' : Disk) : Prop where
  i : D'.i = D.i
  len : D'.d.length = s.dfiles.length
  same : ∀ n : Nat, n ≠ s.dataid → D'.d[n]? = D.d[n]?
  tail : ∀ x f, D'.d[s.dataid]? = some x → s.dfiles[s.dataid]? = some f → Tail f x

theorem DataMid.refl {D : Disk} {s : Store} {G : Log} (h : DInv D s G) : DataMid D s D where
  i := rfl
  len := by rw [h.d, List.length_map]
  same _ _ := rfl
  tail x f hx hf := by
    rw [h.d, List.getElem?_map, hf, Option.map_some, Option.some.injEq] at hx
    rw [← hx]; exact Tail.solid f

theorem DataMid.modify {D D' : Disk} {s : Store} (h : DataMid D s D') (A : DFile → DFile) (hA : ∀ f x, Tail f x → Tail f (A x))
    {D2 : Disk} (h1 : D2.i = D'.i) (h2 : D2.d = D'.d.modify s.dataid A) : DataMid D s D2 where
  i := by rw [h1, h.i]
  len := by rw [h2, List.length_modify, h.len]
  same n hn := by rw [h2, List.getElem?_modify_ne _ _ (fun e => hn e.symm), h.same n hn]
  tail x f hx hf := by
    rw [h2, List.getElem?_modify_eq] at hx
    cases hy : D'.d[s.dataid]? with
    | none => rw [hy] at hx; cases hx
    | some y =>
      rw [hy] at hx
      simp only [Option.map_eq_map, Option.map_some, Option.some.injEq] at hx
      rw [← hx]; exact hA f y (h.tail y f hy hf)

/-- The data files found. -/
theorem DataMid.loss {D D' : Disk} {s : Store} {G : Log} (h : DataMid D s D') (hd : DInv D s G) {fi fd : List Bytes}
    (hp : PowerLoss D' fi fd) : ∃ b, fd = appendFile s.dfiles s.dataid b := by
  obtain ⟨-, p2, -, p4⟩ := hp
  rw [h.len] at p2
  have hother : ∀ n : Nat, n ≠ s.dataid → fd[n]? = s.dfiles[n]? := by
    intro n hn
    by_cases hlt : n < s.dfiles.length
    · have hx : D'.d[n]? = some (DFile.solid s.dfiles[n]) := by
        rw [h.same n hn, hd.d, List.getElem?_map, List.getElem?_eq_getElem hlt]; rfl
      have := p4 n _ hx
      rw [List.getElem?_eq_getElem hlt]
      generalize fd[n]? = o at this
      cases this with
      | kept hp => cases hp; rfl
      | gone hn => cases hn
    · rw [List.getElem?_eq_none (by omega), List.getElem?_eq_none (by omega)]
  by_cases hlt : s.dataid < s.dfiles.length
  · have hx := List.getElem?_eq_getElem (l := D'.d) (i := s.dataid) (by rw [h.len]; exact hlt)
    obtain ⟨b, hb⟩ := (h.tail _ _ hx (List.getElem?_eq_getElem hlt)).survives (p4 _ _ hx)
    refine ⟨b, ?_⟩
    apply List.ext_getElem?
    intro n
    unfold appendFile
    by_cases hn : n = s.dataid
    · subst hn
      rw [hb, List.getElem?_modify_eq, List.getElem?_eq_getElem hlt]; rfl
    · rw [hother n hn, List.getElem?_modify_ne _ _ (fun e => hn e.symm)]
  · refine ⟨[], ?_⟩
    apply List.ext_getElem?
    intro n
    unfold appendFile
    by_cases hn : n = s.dataid
    · rw [List.getElem?_eq_none (by omega), List.getElem?_eq_none (by rw [List.length_modify]; omega)]
    · rw [hother n hn, List.getElem?_modify_ne _ _ (fun e => hn e.symm)]

/-- In the middle of the writes to the data file. -/
theorem dataInsert_mid {D : Disk} {s : Store} {G : Log} (h : DInv D s G) {cf : SyncConf} (hcf : cf.sync = true) (now : Nat)
    {io : Io} (hio : (io.dhdr.ok && io.dpay.ok) = true) (k p : Bytes) (fl crc ts : Nat) {pre : List Op}
    (hpre : pre <+: dataInsertOps s io k p fl crc ts) : DataMid D s (runOps cf now D pre) := by
  rw [Bool.and_eq_true] at hio
  unfold dataInsertOps at hpre
  simp only [hio.1, hio.2, Bool.not_true, Bool.false_eq_true, if_false] at hpre
  generalize (encDHdr _ ++ k) = hdr at hpre
  have h0 := DataMid.refl h
  have h1 : DataMid D s (runOps cf now D [.append .data s.dataid hdr]) :=
    h0.modify (fun x => x.put x.cur.length hdr) (fun f x hx => hx.append hdr) rfl rfl
  have h2 : DataMid D s (runOps cf now D [.append .data s.dataid hdr, .append .data s.dataid p]) :=
    h1.modify (fun x => x.put x.cur.length p) (fun f x hx => hx.append p) rfl rfl
  have h3 : DataMid D s (runOps cf now D [.append .data s.dataid hdr, .append .data s.dataid p, .check .data s.dataid]) := by
    refine h2.modify DFile.sync (fun f x hx => hx.sync) ?_ ?_ <;>
    simp only [runOps, List.foldl_cons, List.foldl_nil, Op.run, Disk.on, due_sync hcf, if_true, Disk.fsync]
  simp only [List.prefix_cons_iff, List.prefix_nil] at hpre
  rcases hpre with rfl | ⟨_, rfl, rfl | ⟨_, rfl, rfl | ⟨_, rfl, rfl⟩⟩⟩
  · exact h0
  · exact h1
  · exact h2
  · exact h3

/-! ### where a command is when the power is lost -/

theorem prefix_append_cases {α : Type} {pre a b : List α} (h : pre <+: a ++ b) : pre <+: a ∨ ∃ z, pre = a ++ z ∧ z <+: b := by
  obtain ⟨q, hq⟩ := h
  rcases List.append_eq_append_iff.1 hq with ⟨z, h1, h2⟩ | ⟨z, h1, h2⟩
  · exact Or.inl ⟨z, h1.symm⟩
  · exact Or.inr ⟨z, h1, q, h2.symm⟩

/-- The record of an existing key was added to the data file and its old index item is being flagged. -/
def Flagged (c : Ctx) (s : Store) (G : Log) (k : Bytes) (D' : Disk) : Prop :=
  ∃ l b prev, liveGet G k = some l ∧
    DInv D' (deleteDisk { s with dfiles := appendFile s.dfiles s.dataid b, dprev := prev } c.io (l.entry c.u)).1 G

theorem appendEntryOps_prefix (s : Store) {io : Io} (h : io.iapp = none) (e : Entry) {A z : List Op}
    (hz : z <+: appendEntryOps s io e) (ht : NotTorn (A ++ z)) : z = [] ∨ z = appendEntryOps s io e := by
  unfold appendEntryOps at hz ⊢
  simp only [h, WriteFault.ok, Option.isNone_none, if_true] at hz ⊢
  simp only [List.prefix_cons_iff, List.prefix_nil] at hz
  rcases hz with rfl | ⟨_, rfl, rfl | ⟨_, rfl, rfl⟩⟩
  · exact Or.inl rfl
  · exact absurd (by rw [List.getLast?_concat]) (ht s.indexid _)
  · exact Or.inr rfl

theorem deleteDiskOps_prefix (s : Store) (io : Io) (e : Entry) {z : List Op} (hz : z <+: deleteDiskOps s io e) :
    z = [] ∨ z = deleteDiskOps s io e := by
  unfold deleteDiskOps at hz ⊢
  simp only at hz ⊢
  split at hz
  · rename_i h; exact Or.inl (List.prefix_nil.1 hz)
  · split at hz
    · exact Or.inl (List.prefix_nil.1 hz)
    · simp only [List.prefix_cons_iff, List.prefix_nil] at hz
      rcases hz with rfl | ⟨_, rfl, rfl⟩
      · exact Or.inl rfl
      · right; simp only [*]

theorem setHandler_mid {D : Disk} {c : Ctx} {br : Branches} {s : Store} {G : Log} (h : DInv D s G)
    (hu : UInv br c.u s G) {cf : SyncConf} (hcf : cf.sync = true) (now : Nat) (hio : GoodIo c) (k p : Bytes)
    (ts : Nat) {pre : List Op} (hpre : pre <+: setHandlerUserOps c s k p ts ((liveGet G k).map (Loc.entry c.u)))
    (ht : NotTorn pre) :
    DataMid D s (runOps cf now D pre) ∨ pre = setHandlerUserOps c s k p ts ((liveGet G k).map (Loc.entry c.u)) ∨
      Flagged c s G k (runOps cf now D pre) := by
  unfold setHandlerUserOps at hpre ⊢
  by_cases hk : k.length = 0
  · simp only [if_pos hk] at hpre ⊢; exact Or.inr (Or.inl (List.prefix_nil.1 hpre))
  simp only [if_neg hk] at hpre ⊢
  by_cases hup : upToDate s ((liveGet G k).map (Loc.entry c.u)) p = true
  · simp only [if_pos hup] at hpre ⊢; exact Or.inr (Or.inl (List.prefix_nil.1 hpre))
  simp only [if_neg hup] at hpre ⊢
  rcases prefix_append_cases hpre with hpre | ⟨z, rfl, hz⟩
  · exact Or.inl (dataInsert_mid h hcf now hio.data k p 0 (crc32 p) ts hpre)
  have hend := dataInsert_mid h hcf now hio.data k p 0 (crc32 p) ts (List.prefix_refl _)
  have h1 := h.dataInsert hcf now hio.data k p 0 (crc32 p) ts
  obtain ⟨b, prev, -, hw⟩ := (dataInsert_ok (s := s) hio.data hu.dataFile k p 0 (crc32 p) ts rfl).eq
  have hu1 : UInv br c.u { s with dfiles := appendFile s.dfiles s.dataid b, dprev := prev } G := hu.appendData b prev
  rw [hw] at h1
  have hnil : z = [] → DataMid D s (runOps cf now D (dataInsertOps s c.io k p 0 (crc32 p) ts ++ z)) := by
    rintro rfl; rw [List.append_nil]; exact hend
  by_cases hoff : (Zdb.dataInsert s c.io k p 0 (crc32 p) ts).2 = 0
  · simp only [if_pos hoff] at hz
    exact Or.inl (hnil (List.prefix_nil.1 hz))
  simp only [if_neg hoff] at hz ⊢
  cases hg : liveGet G k with
  | none =>
    simp only [hg, Option.map_none] at hz ⊢
    rcases appendEntryOps_prefix _ hio.iapp _ hz ht with hz | rfl
    · exact Or.inl (hnil hz)
    · exact Or.inr (Or.inl rfl)
  | some l =>
    simp only [hg, Option.map_some, updateUserOps] at hz ⊢
    have hfl : Flagged c s G k (runOps cf now D (dataInsertOps s c.io k p 0 (crc32 p) ts ++
        deleteDiskOps (Zdb.dataInsert s c.io k p 0 (crc32 p) ts).1 c.io (l.entry c.u))) := by
      refine ⟨l, b, prev, hg, ?_⟩
      rw [runOps_append, hw]
      exact h1.deleteDisk hu1 (liveGet_some hg).1 hio.iflag cf now
    rcases prefix_append_cases hz with hz | ⟨y, rfl, hy⟩
    · rcases deleteDiskOps_prefix _ _ _ hz with hz | rfl
      · exact Or.inl (hnil hz)
      · exact Or.inr (Or.inr hfl)
    · rw [← List.append_assoc] at ht
      rcases appendEntryOps_prefix _ hio.iapp _ hy ht with rfl | rfl
      · rw [List.append_nil]; exact Or.inr (Or.inr hfl)
      · exact Or.inr (Or.inl rfl)

theorem jumpOps_create {br : Branches} {u : Nat} {s : Store} {G : Log} (hu : UInv br u s G) (hcap : s.ifiles.length < 2 ^ 32)
    (A : List Op) : ¬ NoCreate (jumpOps s ++ A) := by
  intro h
  have := hu.irep.length
  have := hu.iid
  have e : (s.indexid + 1) % 2 ^ 32 = s.ifiles.length := by omega
  refine h .index (encIHeader (freshIHeader s.ifiles.length s.mode.byte)) ?_
  simp [jumpOps, indexCreateOps, e]

theorem setBody_mid {D : Disk} {c : Ctx} {br : Branches} {s : Store} {G : Log} (h : DInv D s G)
    (hu : UInv br c.u s G) {cf : SyncConf} (hcf : cf.sync = true) (now : Nat) (hio : GoodIo c)
    (hcap : s.ifiles.length < 2 ^ 32) (argv : List Bytes) (k p : Bytes) {pre : List Op}
    (hnc : NoCreate (cmdSetOps.body c br s argv k p))
    (hpre : pre <+: cmdSetOps.body c br s argv k p) (ht : NotTorn pre) :
    DataMid D s (runOps cf now D pre) ∨ pre = cmdSetOps.body c br s argv k p ∨ Flagged c s G k (runOps cf now D pre) := by
  have hnil : pre <+: [] → DataMid D s (runOps cf now D pre) := by
    intro hp
    rw [List.prefix_nil.1 hp]; exact DataMid.refl h
  unfold cmdSetOps.body at hnc hpre ⊢
  by_cases c1 : k.length > 255
  · simp only [if_pos c1] at hpre; exact Or.inl (hnil hpre)
  simp only [if_neg c1] at hnc hpre ⊢
  by_cases c2 : (!c.writable) = true
  · simp only [if_pos c2] at hpre; exact Or.inl (hnil hpre)
  simp only [if_neg c2] at hnc hpre ⊢
  by_cases c3 : c.conf.isFrozen = true
  · simp only [if_pos c3] at hpre; exact Or.inl (hnil hpre)
  simp only [if_neg c3] at hnc hpre ⊢
  by_cases c4 : c.conf.isLocked = true
  · simp only [if_pos c4] at hpre; exact Or.inl (hnil hpre)
  simp only [if_neg c4] at hnc hpre ⊢
  have hentry : (if k.length ≠ 0 then indexGet br s c.u k else none) =
      (liveGet G k).map (Loc.entry c.u) := by
    by_cases h0 : k.length = 0
    · rw [List.length_eq_zero_iff.1 h0]; simp [liveGet_nil hu]
    · rw [if_pos h0, hu.indexGet]
  rw [hentry] at hnc hpre ⊢
  by_cases c5 : (((liveGet G k).map (Loc.entry c.u)).isSome && c.conf.worm) = true
  · simp only [if_pos c5] at hpre; exact Or.inl (hnil hpre)
  simp only [if_neg c5] at hnc hpre ⊢
  by_cases c6 : overQuota c.conf s.datasize p.length (floatingOf ((liveGet G k).map (Loc.entry c.u))) = true
  · simp only [if_pos c6] at hpre; exact Or.inl (hnil hpre)
  simp only [if_neg c6] at hnc hpre ⊢
  simp only [hu.mode] at hnc hpre ⊢
  unfold jumpIfFullOps jumpIfFull at hnc hpre
  unfold jumpIfFullOps jumpIfFull
  by_cases c7 : fileLen s.dfiles s.dataid + p.length > c.limit
  · simp only [if_pos c7] at hnc
    exact absurd hnc (jumpOps_create hu hcap _)
  · simp only [if_neg c7, List.nil_append] at hpre ⊢
    exact setHandler_mid h hu hcf now hio k p _ hpre ht

theorem delBody_mid {D : Disk} {c : Ctx} {br : Branches} {s : Store} {G : Log} (h : DInv D s G)
    {cf : SyncConf} (hcf : cf.sync = true) (now : Nat) (hio : GoodIo c)
    (argv : List Bytes) (k : Bytes) {pre : List Op} (hpre : pre <+: cmdDelOps.body c br s argv k) :
    DataMid D s (runOps cf now D pre) ∨ pre = cmdDelOps.body c br s argv k := by
  have hnil : pre <+: [] → DataMid D s (runOps cf now D pre) := by
    intro hp
    rw [List.prefix_nil.1 hp]; exact DataMid.refl h
  unfold cmdDelOps.body at hpre ⊢
  by_cases c1 : k.length > 255
  · simp only [if_pos c1] at hpre; exact Or.inl (hnil hpre)
  simp only [if_neg c1] at hpre ⊢
  by_cases c2 : (!c.writable) = true
  · simp only [if_pos c2] at hpre; exact Or.inl (hnil hpre)
  simp only [if_neg c2] at hpre ⊢
  by_cases c3 : c.conf.isFrozen = true
  · simp only [if_pos c3] at hpre; exact Or.inl (hnil hpre)
  simp only [if_neg c3] at hpre ⊢
  by_cases c4 : c.conf.isLocked = true
  · simp only [if_pos c4] at hpre; exact Or.inl (hnil hpre)
  simp only [if_neg c4] at hpre ⊢
  cases hi : indexGet br s c.u k with
  | none => simp only [hi] at hpre; exact Or.inl (hnil hpre)
  | some e =>
    simp only [hi] at hpre ⊢
    by_cases c5 : c.conf.worm = true
    · simp only [if_pos c5] at hpre; exact Or.inl (hnil hpre)
    simp only [if_neg c5] at hpre ⊢
    rcases prefix_append_cases hpre with hpre | ⟨z, rfl, hz⟩
    · exact Or.inl (dataInsert_mid h hcf now hio.data _ _ _ _ _ hpre)
    · have hend := dataInsert_mid h hcf now hio.data e.id [] 1 0 (timestampFromSet c.now argv 2) (List.prefix_refl _)
      by_cases hoff : (Zdb.dataInsert s c.io e.id [] 1 0 (timestampFromSet c.now argv 2)).2 = 0
      · simp only [if_pos hoff] at hz
        rw [List.prefix_nil.1 hz, List.append_nil]; exact Or.inl hend
      · simp only [if_neg hoff] at hz ⊢
        rcases deleteDiskOps_prefix _ _ _ hz with rfl | rfl
        · rw [List.append_nil]; exact Or.inl hend
        · exact Or.inr rfl

/-- One command, cut short. -/
theorem command_mid {D : Disk} {c : Ctx} {br : Branches} {s : Store} {G : Log} (h : DInv D s G)
    (hu : UInv br c.u s G) {cf : SyncConf} (hcf : cf.sync = true) (now : Nat) (hio : GoodIo c)
    (hcap : s.ifiles.length < 2 ^ 32) (d : DsCmd) (argv : List Bytes) {pre : List Op} (hnc : NoCreate (dsOps c br s d argv))
    (hpre : pre <+: dsOps c br s d argv) (ht : NotTorn pre) :
    DataMid D s (runOps cf now D pre) ∨ pre = dsOps c br s d argv ∨
      (d = .set ∧ ∃ k, argv[1]? = some k ∧ Flagged c s G k (runOps cf now D pre)) := by
  have hnil : pre <+: [] → DataMid D s (runOps cf now D pre) := by
    intro hp
    rw [List.prefix_nil.1 hp]; exact DataMid.refl h
  cases d with
  | set =>
    simp only [dsOps] at hnc hpre ⊢
    unfold cmdSetOps at hnc hpre
    unfold cmdSetOps
    match argv with
    | [] => exact Or.inl (hnil hpre)
    | [_] => exact Or.inl (hnil hpre)
    | [_, _] => exact Or.inl (hnil hpre)
    | [a, k, p] =>
      rcases setBody_mid h hu hcf now hio hcap _ k p hnc hpre ht with h | h | h
      · exact Or.inl h
      · exact Or.inr (Or.inl h)
      · exact Or.inr (Or.inr ⟨trivial, k, rfl, h⟩)
    | [a, k, p, x] =>
      simp only at hnc hpre ⊢
      by_cases ha : c.admin = true
      · simp only [if_pos ha] at hnc hpre ⊢
        rcases setBody_mid h hu hcf now hio hcap _ k p hnc hpre ht with h | h | h
        · exact Or.inl h
        · exact Or.inr (Or.inl h)
        · exact Or.inr (Or.inr ⟨trivial, k, rfl, h⟩)
      · simp only [if_neg ha] at hpre
        exact Or.inl (hnil hpre)
    | _ :: _ :: _ :: _ :: _ :: _ => exact Or.inl (hnil hpre)
  | del =>
    have key : DataMid D s (runOps cf now D pre) ∨ pre = cmdDelOps c br s argv := by
      simp only [dsOps] at hpre
      unfold cmdDelOps at hpre ⊢
      match argv with
      | [] => exact Or.inl (hnil hpre)
      | [_] => exact Or.inl (hnil hpre)
      | [a, k] =>
        simp only at hpre ⊢
        cases hv : argsValidate [a, k] 2 with
        | none => simp only [hv] at hpre ⊢; exact delBody_mid h hcf now hio _ _ hpre
        | some _ => simp only [hv] at hpre; exact Or.inl (hnil hpre)
      | [_, k, _] =>
        simp only at hpre ⊢
        by_cases ha : c.admin = true
        · simp only [if_pos ha] at hpre ⊢
          exact delBody_mid h hcf now hio _ _ hpre
        · simp only [if_neg ha] at hpre
          exact Or.inl (hnil hpre)
      | a :: b :: x :: y :: l =>
        simp only at hpre
        cases hv : argsValidate (a :: b :: x :: y :: l) 2 <;> simp only [hv] at hpre <;> exact Or.inl (hnil hpre)
    rcases key with h | h
    · exact Or.inl h
    · exact Or.inr (Or.inl h)
  | nsjump =>
    simp only [dsOps] at hnc hpre
    by_cases ha : c.admin = true
    · simp only [if_pos ha] at hnc
      exact absurd (by simpa using hnc) (jumpOps_create hu hcap [])
    · simp only [if_neg ha] at hpre
      exact Or.inl (hnil hpre)
  | _ => exact Or.inl (hnil hpre)

/-! ### executions -/

theorem DiskRun.snoc {cfg : Option Mode} {cf : SyncConf} {u : Nat} {br br' : Branches} {s s' : Store} {D D' : Disk}
    {tr : List (NsEvent × Reply)} (h : DiskRun cfg cf u br s D tr br' s' D') (c : Ctx) (d : DsCmd) (argv : List Bytes)
    (hu : c.u = u) : DiskRun cfg cf u br s D (tr ++ [(.cmd c d argv, (dsCommand c br' s' d argv).2.2)])
      (dsCommand c br' s' d argv).1 (dsCommand c br' s' d argv).2.1 (runOps cf c.now D' (dsOps c br' s' d argv)) := by
  induction h with
  | nil br s D => exact .cmd c d argv hu rfl (.nil _ _ _)
  | cmd c1 d1 argv1 hu1 h1 _ ih => exact .cmd c1 d1 argv1 hu1 h1 ih
  | foreign h1 _ ih => exact .foreign h1 ih
  | reload t h1 _ ih => exact .reload t h1 ih

theorem SyncRun.snoc {cfg : Option Mode} {cf : SyncConf} {u t : Nat}
    {tr : List (NsEvent × Reply)} {br : Branches} {s : Store} {D : Disk} (h : SyncRun cfg cf u t tr br s D)
    (c : Ctx) (d : DsCmd) (argv : List Bytes) (hu : c.u = u) (hev : EvOK (.cmd c d argv)) (hnf : NoFault (.cmd c d argv))
    (hlen : tr.length + 1 < maxEvents) :
    SyncRun cfg cf u t (tr ++ [(.cmd c d argv, (dsCommand c br s d argv).2.2)])
      (dsCommand c br s d argv).1 (dsCommand c br s d argv).2.1 (runOps cf c.now D (dsOps c br s d argv)) where
  hcfg := h.hcfg
  run := by
    obtain ⟨b0, b, s0, h0, h1, h2⟩ := h.run
    exact ⟨b0, b, s0, h0, h1, h2.snoc c d argv hu⟩
  ev x hx := by
    simp only [List.mem_append, List.mem_singleton] at hx
    rcases hx with hx | rfl
    · exact h.ev x hx
    · exact ⟨hev, hnf⟩
  len := by simpa using hlen

/-- What is known after an execution under `--sync`. -/
theorem SyncRun.inv {cfg : Option Mode} {cf : SyncConf} (hcf : cf.sync = true) {u t : Nat}
    {tr : List (NsEvent × Reply)} {br : Branches} {s : Store} {D : Disk} (h : SyncRun cfg cf u t tr br s D) :
    ∃ G, UInv br u s G ∧ DInv D s G ∧ G.length ≤ tr.length + 1 ∧
      (∀ k, (liveGet G k).map (fun l => l.r.payload) = lastWrite k tr) ∧
      (∀ k, (lastOf (locs G) k).map (fun l => l.r.payload) = lastSet k tr) := by
  obtain ⟨b0, b, s0, h0, h1, h2⟩ := h.run
  have hm : cfg.getD .user = .user := by rcases h.hcfg with rfl | rfl <;> rfl
  rw [freshNs_eq, hm] at h1
  injection h1 with h1 h1'
  subst h1; subst h1'
  have hlen := h.len
  obtain ⟨G, i1, i2, i3, i4⟩ := DInv.run h.hcfg hcf h2 (freshStore_uinv b0 u h0) (DInv.fresh hcf _ _ _) h.ev
    (freshStore_room _ (by omega))
  refine ⟨G, i1, i2, ?_, ?_, ?_⟩
  · have := i1.irep.length
    simp only [freshStore, List.length_cons, List.length_nil] at i3
    omega
  · intro k
    rw [(i4 k).1]
    simp [lastWrite, liveGet, live, locs, locsFrom, locsIn]
  · intro k
    rw [(i4 k).2]
    simp only [lastSet, locs, locsFrom, locsIn, lastOf, List.append_nil, List.filter_nil, List.getLast?_nil, Option.map_none]
    rfl

/-- What is loaded after a power loss in the middle of a command. -/
theorem SyncRun.loaded_mid {cfg : Option Mode} {cf : SyncConf} (hcf : cf.sync = true) {u t : Nat}
    {tr : List (NsEvent × Reply)} {br : Branches} {s : Store} {D : Disk} (h : SyncRun cfg cf u t tr br s D)
    (c : Ctx) (d : DsCmd) (argv : List Bytes) (hu : c.u = u) (hev : EvOK (.cmd c d argv)) (hnf : NoFault (.cmd c d argv))
    (hlen : tr.length + 1 < maxEvents) {pre : List Op} (hnc : NoCreate (dsOps c br s d argv))
    (hpre : pre <+: dsOps c br s d argv) (ht : NotTorn pre)
    {fi fd : List Bytes} (hp : PowerLoss (runOps cf c.now D pre) fi fd) {br0 : Branches} {v : Nat}
    (hbr : ∀ h, nsBranch br0 v h = []) :
    ∃ br' s', loadNs cfg br0 v fi fd = .ok br' s' ∧ s'.mode = .user ∧ InStep s' ∧ s'.indexid ≤ tr.length + 1 ∧
      ∀ k, ∃ w, (MayKeep k tr w ∨ MayKeep k (tr ++ [(.cmd c d argv, (dsCommand c br s d argv).2.2)]) w ∨
        (d = .set ∧ argv[1]? = some k ∧ w = none)) ∧ HasVal br' v s'.dfiles k w := by
  subst hu
  obtain ⟨G, i1, i2, i3, i4, i5⟩ := h.inv hcf
  have hcap : s.ifiles.length < 2 ^ 32 := by
    have := i1.irep.length
    unfold maxEvents at hlen; omega
  rcases command_mid i2 i1 hcf c.now ⟨hnf.1, hnf.2.1, hnf.2.2.1, hnf.2.2.2.1⟩ hcap d argv hnc hpre ht with hm | rfl | ⟨hd, k0, hk0, hm⟩
  · obtain ⟨b, hb⟩ := hm.loss i2 hp
    have hu1 := i1.appendData b 0
    have hd1 : DInv ⟨D.i, fd.map DFile.solid, 0, 0⟩ { s with dfiles := appendFile s.dfiles s.dataid b, dprev := 0 } G :=
      ⟨by rw [hb], i2.ilen, i2.idx⟩
    have hp1 : PowerLoss ⟨D.i, fd.map DFile.solid, 0, 0⟩ fi fd := by
      obtain ⟨p1, p2, p3, p4⟩ := hp
      rw [hm.i] at p1 p3
      refine ⟨p1, by simp, p3, ?_⟩
      intro n f hf
      rw [List.getElem?_map] at hf
      cases hx : fd[n]? with
      | none => rw [hx] at hf; cases hf
      | some y =>
        rw [hx, Option.map_some, Option.some.injEq] at hf
        rw [← hf]; exact .kept (.nil _)
    obtain ⟨br', s', j1, j2, j3, j4, j5⟩ := hd1.loaded h.hcfg hu1 h.len i3 i4 i5 hp1 hbr
    refine ⟨br', s', j1, j2, j3, by omega, fun k => ?_⟩
    obtain ⟨w, hw, hv⟩ := j5 k
    exact ⟨w, Or.inl hw, hv⟩
  · obtain ⟨br', s', j1, j2, j3, j4, j5⟩ := (h.snoc c d argv rfl hev hnf hlen).loaded hcf hp hbr
    refine ⟨br', s', j1, j2, j3, by simpa using j4, fun k => ?_⟩
    obtain ⟨w, hw, hv⟩ := j5 k
    exact ⟨w, Or.inr (Or.inl hw), hv⟩
  · obtain ⟨l, b, prev, hg, hm⟩ := hm
    have hu1 := i1.appendData b prev
    generalize { s with dfiles := appendFile s.dfiles s.dataid b, dprev := prev } = t at hm hu1
    obtain ⟨G', -, g2, g3, g4⟩ := hu1.delete c.io hnf.2.2.2.1 hg
    have hm1 := (hm.congr (indexDelete_files br t c.u c.io (l.entry c.u))).mono (fun n p hp => g4.flagAt hp)
    have hx : ∀ k, writeOf k ((.cmd c .del [[], k0], .simple "OK") : NsEvent × Reply) = if k0 = k then some none else none :=
      fun k => rfl
    have hlive : ∀ k, (liveGet G' k).map (fun l => l.r.payload) =
        (writeOf k ((.cmd c .del [[], k0], .simple "OK") : NsEvent × Reply)).getD ((liveGet G k).map (fun l => l.r.payload)) := by
      intro k
      have := congrArg (fun m => ((KV.get m k).map Val.payload)) g3
      simp only [KV.get_del, absKV_get, Option.map_map] at this
      rw [hx]
      refine Eq.trans (Eq.trans ?_ this) ?_
      · rfl
      · by_cases hk : k0 = k
        · simp [hk]
        · simp only [if_neg hk, Option.map_map, Option.getD_none]; rfl
    have hstep : LogStep (Writes ((.cmd c .del [[], k0], .simple "OK") : NsEvent × Reply)) G G' :=
      g4.mono (fun k hk => by subst hk; simp [Writes, hx])
    have hlw : ∀ k, (liveGet G' k).map (fun l => l.r.payload) = lastWrite k (tr ++ [(.cmd c .del [[], k0], .simple "OK")]) := by
      intro k
      rw [hlive k, i4 k]
      simp [lastWrite, List.foldl_append]
    have hls : ∀ k, (lastOf (locs G') k).map (fun l => l.r.payload) = lastSet k (tr ++ [(.cmd c .del [[], k0], .simple "OK")]) := by
      intro k
      rw [hstep.lastOf (br := br) (s := s) g2 k (hlive k), i5 k]
      simp only [lastSet, List.foldl_append, List.foldl_cons, List.foldl_nil, hx]
      by_cases hk : k0 = k <;> simp [hk]
    have hGl : G'.length ≤ G.length := by
      have a1 := g2.irep.length
      have a2 := hu1.irep.length
      have a3 := congrArg (fun x => x.1.length) (indexDelete_files br t c.u c.io (l.entry c.u))
      rw [← deleteDisk_files] at a3
      simp only [Store.files] at a3
      have a4 : ∀ x : List Bytes × List Bytes, (opsFiles x (deleteDiskOps t c.io (l.entry c.u))).1.length = x.1.length := by
        intro x
        unfold deleteDiskOps
        simp only
        split
        · rfl
        · split
          · rfl
          · simp [opsFiles, Op.files, writeFileAt]
      rw [a4] at a3
      simp only at a3
      omega
    obtain ⟨br', s', j1, j2, j3, j4, j5⟩ := hm1.loaded (tr := tr ++ [(.cmd c .del [[], k0], .simple "OK")]) h.hcfg g2
      (by simpa using hlen) (by simp; omega) hlw hls hp hbr
    refine ⟨br', s', j1, j2, j3, by simpa using j4, fun k => ?_⟩
    obtain ⟨w, hw, hv⟩ := j5 k
    refine ⟨w, ?_, hv⟩
    have e1 : lastSet k (tr ++ [(.cmd c .del [[], k0], .simple "OK")]) = lastSet k tr := by
      simp only [lastSet, List.foldl_append, List.foldl_cons, List.foldl_nil, hx]
      by_cases hk : k0 = k
      · simp [hk]
      · simp [hk]
    have e2 : lastWrite k (tr ++ [(.cmd c .del [[], k0], .simple "OK")]) = if k0 = k then none else lastWrite k tr := by
      simp only [lastWrite, List.foldl_append, List.foldl_cons, List.foldl_nil, hx]
      by_cases hk : k0 = k
      · simp [hk]
      · simp [hk]
    rw [MayKeep, e1, e2] at hw
    by_cases hk : k0 = k
    · subst hk
      rw [if_pos rfl] at hw
      rcases hw with rfl | ⟨-, rfl⟩
      · exact Or.inr (Or.inr ⟨hd, hk0, rfl⟩)
      · left; left
        rw [← i5, ← i4, i1.lastOf_live hg, hg]
    · rw [if_neg hk] at hw
      exact Or.inl hw

/-- A command says nothing about the keys it does not name. -/
theorem writeOf_other (c : Ctx) (d : DsCmd) (argv : List Bytes) (r : Reply) {k : Bytes} (hk : argv[1]? ≠ some k) :
    writeOf k (.cmd c d argv, r) = none := by
  unfold writeOf
  split
  · rename_i h
    simp only [Prod.mk.injEq, NsEvent.cmd.injEq] at h
    obtain ⟨⟨-, -, rfl⟩, -⟩ := h
    rw [if_neg (fun e => hk (by simp [e]))]
  · rename_i h
    simp only [Prod.mk.injEq, NsEvent.cmd.injEq] at h
    obtain ⟨⟨-, -, rfl⟩, -⟩ := h
    rw [if_neg (fun e => hk (by simp [e]))]
  · rfl

end Zdb
