/-
The data files of a user-key namespace as a list of records, and the pass of the rebuild tool over them.
-/
import Verif.Spec.Rebuild
import Verif.Lemmas.UserRun
import Verif.Lemmas.WithData
import Verif.Spec.DataLog
namespace Zdb

def DRec.hdr (r : DRec) : DHdr where
  idlength := r.id.length
  datalength := r.payload.length
  previous := r.prev
  integrity := if r.del then 0 else crc32 r.payload
  flags := if r.del then 1 else 0
  timestamp := r.time

theorem DRec.enc_eq (r : DRec) : r.enc = encDHdr r.hdr ++ (r.id ++ r.payload) := rfl

/-- The map after a record; `none`: a deletion of a missing key. -/
def DRec.step (m : KV) (r : DRec) : Option KV :=
  if r.del then (if (m.get r.id).isSome then some (m.del r.id) else none) else some (m.put r.id r.payload r.time)

def replayKV : KV → List DRec → Option KV
  | m, [] => some m
  | m, r :: rs => (r.step m).bind (fun m => replayKV m rs)

theorem replayKV_append (m : KV) (a b : List DRec) : replayKV m (a ++ b) = (replayKV m a).bind (fun m => replayKV m b) := by
  induction a generalizing m with
  | nil => rfl
  | cons r a ih =>
    simp only [List.cons_append, replayKV]
    cases r.step m with
    | none => rfl
    | some m' => exact ih m'

/-- Every stored record begins in the first 2 GiB of its file. -/
def DRoom (g : List DRec) : Prop := ∀ a r b, g = a ++ r :: b → r.del = false → 28 + dsize a ≤ 2 ^ 31

/-- The data files contain the records `D`, of which the replay gives `m`. -/
structure DRep (fs : List Bytes) (D : List (List DRec)) (m : KV) : Prop where
  files : fs = D.mapIdx encDFile
  wf : ∀ g ∈ D, ∀ r ∈ g, r.WF
  room : ∀ g ∈ D, DRoom g
  replay : replayKV [] D.flatten = some m

theorem DRec.enc_length (r : DRec) : r.enc.length = 18 + r.id.length + r.payload.length := by
  rw [DRec.enc_eq]; simp [DRec.hdr]; omega

theorem DRec.hdr_wf {r : DRec} (h : r.WF) : r.hdr.WF := by
  refine ⟨h.id1, h.len, h.prev, ?_, ?_, h.time⟩
  · simp only [DRec.hdr]; split
    · decide
    · exact crc32_lt _
  · simp only [DRec.hdr]; split <;> decide

theorem flatMap_enc_length (g : List DRec) : (g.flatMap DRec.enc).length = dsize g := by
  induction g with
  | nil => rfl
  | cons r g ih => rw [List.flatMap_cons, List.length_append, ih]; simp [dsize]

theorem encDFile_length (i : Nat) (g : List DRec) : (encDFile i g).length = 28 + dsize g := by
  rw [encDFile, List.length_append, flatMap_enc_length, freshDFHeader_length]

/-- The records up to the last file with one more record. -/
def dAppend (D : List (List DRec)) (r : DRec) : List (List DRec) :=
  match D.getLast? with
  | some g => D.dropLast ++ [g ++ [r]]
  | none => D

theorem dAppend_eq (D : List (List DRec)) (g : List DRec) (r : DRec) : dAppend (D ++ [g]) r = D ++ [g ++ [r]] := by
  simp [dAppend]

theorem mapIdx_concat' (D : List (List DRec)) (g : List DRec) :
    (D ++ [g]).mapIdx encDFile = D.mapIdx encDFile ++ [encDFile D.length g] := by
  rw [List.mapIdx_append]; simp

theorem appendFile_last (a : List Bytes) (f b : Bytes) : appendFile (a ++ [f]) a.length b = a ++ [f ++ b] := by
  unfold appendFile
  induction a with
  | nil => rfl
  | cons x a ih => simp only [List.cons_append, List.length_cons, List.modify_succ_cons, ih]

theorem DRep.append {fs : List Bytes} {D : List (List DRec)} {m m' : KV} (h : DRep fs D m) {n : Nat} (hn : n + 1 = D.length)
    {r : DRec} (hw : r.WF) (hs : r.step m = some m') (hr : r.del = false → fileLen fs n ≤ 2 ^ 31) :
    DRep (appendFile fs n r.enc) (dAppend D r) m' := by
  have hne : D ≠ [] := by intro h0; rw [h0] at hn; simp at hn
  obtain ⟨D', g, rfl⟩ : ∃ D' g, D = D' ++ [g] := ⟨D.dropLast, D.getLast hne, (List.dropLast_concat_getLast hne).symm⟩
  have hn' : n = D'.length := by simp at hn; omega
  subst hn'
  rw [dAppend_eq]
  have hlen : (D'.mapIdx encDFile).length = D'.length := by simp
  have hf := h.files
  rw [mapIdx_concat'] at hf
  refine ⟨?_, ?_, ?_, ?_⟩
  · rw [hf, mapIdx_concat']
    have := appendFile_last (D'.mapIdx encDFile) (encDFile D'.length g) r.enc
    rw [hlen] at this
    rw [this, encDFile, encDFile]
    simp
  · intro x hx y hy
    rcases List.mem_append.1 hx with hx | hx
    · exact h.wf x (List.mem_append_left _ hx) y hy
    · rw [List.mem_singleton.1 hx] at hy
      rcases List.mem_append.1 hy with hy | hy
      · exact h.wf g (by simp) y hy
      · rw [List.mem_singleton.1 hy]; exact hw
  · intro x hx
    rcases List.mem_append.1 hx with hx | hx
    · exact h.room x (List.mem_append_left _ hx)
    · rw [List.mem_singleton.1 hx]
      intro a y b hab hd
      rcases List.eq_nil_or_concat b with rfl | ⟨b', z, rfl⟩
      · have := List.append_inj' hab rfl
        obtain ⟨rfl, h2⟩ := this
        injection h2 with h2
        subst h2
        have hl := hr hd
        rw [hf, fileLen] at hl
        simp [encDFile_length] at hl
        exact hl
      · have e : g ++ [r] = (a ++ y :: b') ++ [z] := by rw [hab]; simp
        have := List.append_inj' e rfl
        exact h.room g (by simp) a y b' this.1 hd
  · rw [List.flatten_append, List.flatten_singleton, ← List.append_assoc, replayKV_append]
    have := h.replay
    rw [List.flatten_append, List.flatten_singleton] at this
    rw [this]
    simp [replayKV, hs]

theorem DRep.jump {fs : List Bytes} {D : List (List DRec)} {m : KV} (h : DRep fs D m) {n : Nat} (hn : n = D.length) :
    DRep (fs ++ [encDFHeader (freshDFHeader n)]) (D ++ [[]]) m := by
  subst hn
  refine ⟨?_, ?_, ?_, ?_⟩
  · rw [mapIdx_concat', ← h.files]; simp [encDFile]
  · intro x hx y hy
    rcases List.mem_append.1 hx with hx | hx
    · exact h.wf x hx y hy
    · rw [List.mem_singleton.1 hx] at hy; cases hy
  · intro x hx
    rcases List.mem_append.1 hx with hx | hx
    · exact h.room x hx
    · rw [List.mem_singleton.1 hx]
      intro a y b hab
      simp at hab
  · simpa using h.replay

/-- The data files of `s` contain the records `D`, which tell the writes `W`, every record but the first of a file
    gives the place of the record before it, and the store remembers the place of the last record. -/
structure DLog (s : Store) (D : List (List DRec)) (W : List Write) : Prop where
  files : s.dfiles = D.mapIdx encDFile
  wf : ∀ g ∈ D, ∀ r ∈ g, r.WF
  small : ∀ g ∈ D, ∀ r ∈ g, r.payload.length ≤ 2 ^ 23
  chain : ∀ g ∈ D, Chained g
  last : ∀ D0 a x, D = D0 ++ [a ++ [x]] → s.dprev = 28 + dsize a
  writes : D.flatten.map DRec.what = W

theorem DLog.congr {s t : Store} {D : List (List DRec)} {W : List Write} (h : DLog s D W)
    (h1 : t.dfiles = s.dfiles) (h2 : t.dprev = s.dprev) : DLog t D W :=
  ⟨by rw [h1]; exact h.files, h.wf, h.small, h.chain, fun D0 a x e => by rw [h2]; exact h.last D0 a x e, h.writes⟩

theorem DLog.append {s t : Store} {D : List (List DRec)} {W : List Write} (h : DLog s D W)
    (hn : s.dataid + 1 = D.length) {r : DRec} (hw : r.WF) (hp : r.prev = s.dprev % 2 ^ 32)
    (hl : r.payload.length ≤ 2 ^ 23) (h1 : t.dfiles = appendFile s.dfiles s.dataid r.enc)
    (h2 : t.dprev = fileLen s.dfiles s.dataid) :
    DLog t (dAppend D r) (W ++ [r.what]) := by
  have hne : D ≠ [] := by intro h0; rw [h0] at hn; simp at hn
  obtain ⟨D', g, rfl⟩ : ∃ D' g, D = D' ++ [g] := ⟨D.dropLast, D.getLast hne, (List.dropLast_concat_getLast hne).symm⟩
  have hn' : s.dataid = D'.length := by simp at hn; omega
  have hfl : fileLen s.dfiles s.dataid = 28 + dsize g := by
    rw [h.files, mapIdx_concat', hn', fileLen]
    simp [encDFile_length]
  rw [dAppend_eq]
  refine ⟨?_, ?_, ?_, ?_, ?_, ?_⟩
  · rw [h1, hn', h.files, mapIdx_concat', mapIdx_concat']
    have := appendFile_last (D'.mapIdx encDFile) (encDFile D'.length g) r.enc
    rw [List.length_mapIdx] at this
    rw [this, encDFile, encDFile]
    simp
  · intro x hx y hy
    rcases List.mem_append.1 hx with hx | hx
    · exact h.wf x (List.mem_append_left _ hx) y hy
    · rw [List.mem_singleton.1 hx] at hy
      rcases List.mem_append.1 hy with hy | hy
      · exact h.wf g (by simp) y hy
      · rw [List.mem_singleton.1 hy]; exact hw
  · intro x hx y hy
    rcases List.mem_append.1 hx with hx | hx
    · exact h.small x (List.mem_append_left _ hx) y hy
    · rw [List.mem_singleton.1 hx] at hy
      rcases List.mem_append.1 hy with hy | hy
      · exact h.small g (by simp) y hy
      · rw [List.mem_singleton.1 hy]; exact hl
  · intro x hx
    rcases List.mem_append.1 hx with hx | hx
    · exact h.chain x (List.mem_append_left _ hx)
    · rw [List.mem_singleton.1 hx]
      intro a y z b hab
      rcases List.eq_nil_or_concat b with rfl | ⟨b', w, rfl⟩
      · have e : g ++ [r] = (a ++ [y]) ++ [z] := by rw [hab]; simp
        obtain ⟨e1, e2⟩ := List.append_inj' e rfl
        injection e2 with e2
        subst e2
        rw [hp, h.last D' a y (by rw [e1])]
      · have e : g ++ [r] = (a ++ y :: z :: b') ++ [w] := by rw [hab]; simp
        exact h.chain g (by simp) a y z b' (List.append_inj' e rfl).1
  · intro D0 a x e
    obtain ⟨-, e2⟩ := List.append_inj' e rfl
    injection e2 with e2
    rw [h2, hfl, (List.append_inj' e2 rfl).1]
  · rw [← h.writes]; simp

theorem DLog.jump {s t : Store} {D : List (List DRec)} {W : List Write} (h : DLog s D W)
    {n : Nat} (hn : n = D.length) (h1 : t.dfiles = s.dfiles ++ [encDFHeader (freshDFHeader n)]) :
    DLog t (D ++ [[]]) W := by
  subst hn
  refine ⟨by rw [h1, mapIdx_concat', ← h.files]; simp [encDFile], ?_, ?_, ?_, ?_, ?_⟩
  · intro x hx y hy
    rcases List.mem_append.1 hx with hx | hx
    · exact h.wf x hx y hy
    · rw [List.mem_singleton.1 hx] at hy; cases hy
  · intro x hx y hy
    rcases List.mem_append.1 hx with hx | hx
    · exact h.small x hx y hy
    · rw [List.mem_singleton.1 hx] at hy; cases hy
  · intro x hx
    rcases List.mem_append.1 hx with hx | hx
    · exact h.chain x hx
    · rw [List.mem_singleton.1 hx]
      intro a y z b hab
      simp at hab
  · intro D0 a x e
    obtain ⟨-, e2⟩ := List.append_inj' e rfl
    simp at e2
  · rw [← h.writes]; simp

/-- The scan of a data file ends at its last record. -/
theorem dataScanLast_records (f : Bytes) (g : List DRec) (hwf : ∀ r ∈ g, r.WF) (hsm : ∀ r ∈ g, r.payload.length ≤ 2 ^ 23) :
    ∀ (A : Bytes) (fuel last : Nat), f = A ++ g.flatMap DRec.enc → g.length ≤ fuel → ∀ a x, g = a ++ [x] →
      dataScanLast fuel f A.length last = A.length + dsize a := by
  induction g with
  | nil => intro A fuel last _ _ a x e; simp at e
  | cons r g ih =>
    intro A fuel last hf hfu a x e
    obtain ⟨fuel, rfl⟩ : ∃ n, fuel = n + 1 := ⟨fuel - 1, by simp at hfu; omega⟩
    have hr := hwf r (List.mem_cons_self ..)
    have hs := hsm r (List.mem_cons_self ..)
    have hrd : readExact f A.length dhdrLen = some (encDHdr r.hdr) := by
      apply readExact_at (a := A) (c := (r.id ++ r.payload) ++ g.flatMap DRec.enc) _ rfl (by simp [dhdrLen])
      rw [hf, List.flatMap_cons, DRec.enc_eq]; simp
    have hid := hr.id1
    have hnext : A.length + dhdrLen + (r.hdr.datalength + r.hdr.idlength) % 2 ^ 32 = (A ++ r.enc).length := by
      rw [List.length_append, DRec.enc_length]
      simp only [DRec.hdr, dhdrLen]
      rw [Nat.mod_eq_of_lt (by omega)]; omega
    have hdec : decDHdr (encDHdr r.hdr) = r.hdr := decDHdr_encDHdr _ (DRec.hdr_wf hr)
    unfold dataScanLast
    simp only [hrd, hdec, hnext]
    rcases List.eq_nil_or_concat g with rfl | ⟨g', y, rfl⟩
    · obtain ⟨e1, -⟩ := List.append_inj' (s₁ := []) (t₁ := [r]) e rfl
      subst e1
      have hend : readExact f (A ++ r.enc).length dhdrLen = none := by
        apply readExact_eq_none
        · decide
        · rw [hf]; simp [dhdrLen]
      cases fuel with
      | zero => simp [dataScanLast, dsize]
      | succ n => simp only [dataScanLast, hend]; simp [dsize]
    · obtain ⟨e1, e2⟩ := List.append_inj' (s₁ := r :: g') (t₁ := [y]) (s₂ := a) (t₂ := [x]) (by simpa using e) rfl
      rw [ih (fun z hz => hwf z (List.mem_cons_of_mem _ hz)) (fun z hz => hsm z (List.mem_cons_of_mem _ hz)) (A ++ r.enc) fuel
        A.length (by rw [hf, List.flatMap_cons]; simp) (by simp at hfu; simp; omega) g' y (by simp)]
      rw [← e1]
      simp [dsize]; omega

/-- What a load leaves as the place of the last record. -/
theorem loadNs_dprev {cfg : Option Mode} {br b : Branches} {u : Nat} {I F : List Bytes} {t : Store}
    (h : loadNs cfg br u I F = .ok b t) : ∃ q, t.dprev = match t.dfiles[t.dataid]? with
      | some f => dataScanLast f.length f dfhdrLen q
      | none => q := by
  unfold loadNs at h
  simp only at h
  generalize loadLoop _ _ _ _ _ = x at h
  cases x with
  | ok b0 s0 =>
    simp only at h
    injection h with h1 h2
    subst h2
    exact ⟨s0.dprev, rfl⟩
  | exit => simp at h
  | ub => simp at h

theorem DLog.load {s t : Store} {D : List (List DRec)} {W : List Write} (h : DLog s D W)
    {cfg : Option Mode} {br b : Branches} {u : Nat} {I F : List Bytes} (hl : loadNs cfg br u I F = .ok b t)
    (h1 : t.dfiles = s.dfiles) (hid : t.dataid + 1 = D.length) : DLog t D W := by
  refine ⟨by rw [h1]; exact h.files, h.wf, h.small, h.chain, ?_, h.writes⟩
  intro D0 a x e
  obtain ⟨q, hq⟩ := loadNs_dprev hl
  subst e
  have hdf : t.dfiles[t.dataid]? = some (encDFile D0.length (a ++ [x])) := by
    have : t.dataid = D0.length := by simp at hid; omega
    rw [h1, h.files, mapIdx_concat', this]; simp
  rw [hdf] at hq
  simp only at hq
  have hfl := freshDFHeader_length D0.length
  have := dataScanLast_records (encDFile D0.length (a ++ [x])) (a ++ [x]) (h.wf _ (by simp)) (h.small _ (by simp))
    (encDFHeader (freshDFHeader D0.length)) (encDFile D0.length (a ++ [x])).length q rfl (by
      rw [encDFile_length, dsize]
      have : ∀ g : List DRec, g.length ≤ (g.map (fun r => r.enc.length)).sum := by
        intro g
        induction g with
        | nil => simp
        | cons r g ih => have := r.enc_length; simp; omega
      have := this (a ++ [x])
      omega) a x rfl
  rw [hfl] at this
  rw [hq]; exact this

theorem DLog.length {s : Store} {D : List (List DRec)} {W : List Write} (h : DLog s D W) :
    s.dfiles.length = D.length := by
  rw [h.files]; simp

/-- The log of a user-key namespace, with the map. -/
structure ULog (s : Store) (D : List (List DRec)) (m : KV) (W : List Write) : Prop where
  rep : DRep s.dfiles D m
  log : DLog s D W

section ulog
variable {s t : Store} {D : List (List DRec)} {m m' : KV} {W : List Write}

theorem ULog.congr (h : ULog s D m W) (h1 : t.dfiles = s.dfiles) (h2 : t.dprev = s.dprev) : ULog t D m W :=
  ⟨by rw [h1]; exact h.rep, h.log.congr h1 h2⟩

theorem ULog.append (h : ULog s D m W) (hn : s.dataid + 1 = D.length) {r : DRec} (hw : r.WF) (hs : r.step m = some m')
    (hr : r.del = false → fileLen s.dfiles s.dataid ≤ 2 ^ 31) (hp : r.prev = s.dprev % 2 ^ 32)
    (hl : r.payload.length ≤ 2 ^ 23) (h1 : t.dfiles = appendFile s.dfiles s.dataid r.enc)
    (h2 : t.dprev = fileLen s.dfiles s.dataid) : ULog t (dAppend D r) m' (W ++ [r.what]) :=
  ⟨by rw [h1]; exact h.rep.append hn hw hs hr, h.log.append hn hw hp hl h1 h2⟩

theorem ULog.jump (h : ULog s D m W) {n : Nat} (hn : n = D.length) (h1 : t.dfiles = s.dfiles ++ [encDFHeader (freshDFHeader n)]) :
    ULog t (D ++ [[]]) m W :=
  ⟨by rw [h1]; exact h.rep.jump hn, h.log.jump hn h1⟩

theorem ULog.load (h : ULog s D m W) {cfg : Option Mode} {br b : Branches} {u : Nat} {I F : List Bytes}
    (hl : loadNs cfg br u I F = .ok b t) (h1 : t.dfiles = s.dfiles) (hid : t.dataid + 1 = D.length) : ULog t D m W :=
  ⟨by rw [h1]; exact h.rep, h.log.load hl h1 hid⟩

end ulog

/-! ### the commands -/

theorem DRep.length {fs : List Bytes} {D : List (List DRec)} {m : KV} (h : DRep fs D m) : fs.length = D.length := by
  rw [h.files]; simp

/-- The bytes written by `dataInsert`. -/
theorem dataInsert_good {s : Store} {io : Io} (h1 : io.dhdr = none) (h2 : io.dpay = none) (r : DRec)
    (hp : r.prev = s.dprev % 2 ^ 32) :
    dataInsert s io r.id r.payload (if r.del then 1 else 0) (if r.del then 0 else crc32 r.payload) r.time =
      ({ s with dfiles := appendFile s.dfiles s.dataid r.enc, dprev := fileLen s.dfiles s.dataid }, fileLen s.dfiles s.dataid) := by
  unfold dataInsert
  simp only [h1, h2, WriteFault.ok, Option.isNone_none, Bool.not_true, Bool.false_eq_true, if_false]
  rw [encDHdr_prev, ← hp, List.append_assoc]
  rfl

def ackSet (p : Bytes) (ts : Nat) : Reply → List Write
  | .bulk k => [⟨k, some p, ts⟩]
  | _ => []

def ackDel (k : Bytes) (ts : Nat) : Reply → List Write
  | .simple _ => [⟨k, none, ts⟩]
  | _ => []

theorem acked_set (c : Ctx) (n k p : Bytes) (rest : List Bytes) (r : Reply) :
    acked (.cmd c .set (n :: k :: p :: rest), r) = ackSet p (timestampFromSet c.now (n :: k :: p :: rest) 3) r := by
  cases rest <;> cases r <;> rfl

theorem acked_del (c : Ctx) (n k : Bytes) (rest : List Bytes) (r : Reply) :
    acked (.cmd c .del (n :: k :: rest), r) = ackDel k (timestampFromSet c.now (n :: k :: rest) 2) r := by
  cases rest <;> cases r <;> rfl

/-- Only SET and DEL are acknowledged writes. -/
theorem acked_other {d : DsCmd} (h1 : d ≠ .set) (h2 : d ≠ .del) (c : Ctx) (argv : List Bytes) (r : Reply) :
    acked (.cmd c d argv, r) = [] := by
  cases d <;> first | rfl | exact absurd rfl h1 | exact absurd rfl h2

/-- A refused request is no acknowledged write. -/
theorem acked_err (e : NsEvent) (m : String) : acked (e, .err m) = [] := by
  unfold acked
  split <;> first | rfl | simp_all

theorem setHandlerUser_data {c : Ctx} {br : Branches} {s : Store} {G : Log} (h : UInv br c.u s G) {D : List (List DRec)}
    {W : List Write} (hD : ULog s D (absKV G) W) (hd : c.io.dhdr = none) (hpy : c.io.dpay = none) (k p : Bytes) (ts : Nat)
    (hk : k.length < 256) (hp : p.length ≤ 2 ^ 23) (hts : ts < 2 ^ 32) (hfl : fileLen s.dfiles s.dataid ≤ 2 ^ 31) :
    ∃ D', ULog (setHandlerUser c br s k p ts ((liveGet G k).map (Loc.entry c.u))).2.1 D'
      (if k = [] then absKV G else if ((absKV G).get k).map (·.payload) = some p then absKV G else (absKV G).put k p ts)
      (W ++ if k = [] then [] else if ((absKV G).get k).map (·.payload) = some p then [] else [⟨k, some p, ts⟩]) := by
  by_cases hk0 : k = []
  · subst hk0
    rw [if_pos rfl, if_pos rfl, List.append_nil]
    exact ⟨D, by simpa [setHandlerUser] using hD⟩
  have hk0' : k.length ≠ 0 := fun e => hk0 (List.length_eq_zero_iff.1 e)
  rw [if_neg hk0, if_neg hk0]
  have hupiff : upToDate s ((liveGet G k).map (Loc.entry c.u)) p = true ↔ ((absKV G).get k).map (·.payload) = some p := by
    rw [absKV_get]
    cases hg : liveGet G k with
    | none => simp [upToDate]
    | some l =>
      rw [Option.map_some, upToDate_iff (h.get hg) p (by omega)]
      simp [Loc.val]
  by_cases hup : upToDate s ((liveGet G k).map (Loc.entry c.u)) p = true
  · rw [if_pos (hupiff.1 hup), if_pos (hupiff.1 hup), List.append_nil]
    have hst : setHandlerUser c br s k p ts ((liveGet G k).map (Loc.entry c.u)) = (br, s, .nil) := by
      simp only [setHandlerUser, if_neg hk0', hup, if_true]
    rw [hst]
    exact ⟨D, hD⟩
  · rw [if_neg (fun e => hup (hupiff.2 e)), if_neg (fun e => hup (hupiff.2 e))]
    have hdi := dataInsert_good (s := s) hd hpy ⟨k, p, s.dprev % 2 ^ 32, false, ts⟩ rfl
    simp only [Bool.false_eq_true, if_false] at hdi
    have hres : (setHandlerUser c br s k p ts ((liveGet G k).map (Loc.entry c.u))).2.1.dfiles =
        appendFile s.dfiles s.dataid (DRec.enc ⟨k, p, s.dprev % 2 ^ 32, false, ts⟩) ∧
        (setHandlerUser c br s k p ts ((liveGet G k).map (Loc.entry c.u))).2.1.dprev = fileLen s.dfiles s.dataid := by
      simp only [setHandlerUser, if_neg hk0', hdi, if_neg hup]
      split
      · exact ⟨rfl, rfl⟩
      · generalize (liveGet G k).map (Loc.entry c.u) = e
        cases e with
        | none =>
          simp only
          split <;> exact ⟨(insertUser_same br _ _ _ _).df, insertUser_dprev br _ _ _ _⟩
        | some e =>
          simp only
          split <;> exact ⟨(updateUser_same br _ _ _ _ _).df, updateUser_dprev br _ _ _ _ _⟩
    refine ⟨_, hD.append ?_ (r := ⟨k, p, s.dprev % 2 ^ 32, false, ts⟩) ⟨by simp only; omega, hk, by simp only; omega, Nat.mod_lt _ (by decide), hts, by simp⟩
      rfl (fun _ => hfl) rfl hp hres.1 hres.2⟩
    rw [← hD.rep.length, h.dlen, h.did]; exact h.iid

theorem jump_data {br : Branches} {u : Nat} {s : Store} {G : Log} (h : UInv br u s G) (hcap : s.ifiles.length < 2 ^ 32)
    {D : List (List DRec)} {m : KV} {W : List Write} (hD : ULog s D m W) : ULog (Zdb.jump s) (D ++ [[]]) m W := by
  have hlen := h.irep.length
  have hc := h.toCore.jump (by rw [h.mode]; rfl) (by omega)
  exact hD.jump (by rw [← hD.rep.length, h.dlen]) hc.2.1

theorem cmdSet_body_data {c : Ctx} {br : Branches} {s : Store} {G : Log} (h : UInv br c.u s G) {D : List (List DRec)}
    {W : List Write} (hD : ULog s D (absKV G) W) (hd : c.io.dhdr = none) (hpy : c.io.dpay = none) (hlim : c.limit ≤ 2 ^ 31)
    (hcap : s.ifiles.length < 2 ^ 32) (htot : totalData s < 2 ^ 63) (hq : c.conf.maxsize < 2 ^ 63)
    (argv : List Bytes) (k p : Bytes) (hp : p.length ≤ 2 ^ 23) :
    ∃ D', ULog (cmdSet.body c br s argv k p).2.1 D'
      (specSet c.conf c.writable (c.io.dhdr.ok && c.io.dpay.ok) (absKV G) k p (timestampFromSet c.now argv 3)).1
      (W ++ ackSet p (timestampFromSet c.now argv 3) (specSet c.conf c.writable (c.io.dhdr.ok && c.io.dpay.ok) (absKV G) k p (timestampFromSet c.now argv 3)).2) := by
  have hD0 : ULog s D (absKV G) (W ++ []) := by rw [List.append_nil]; exact hD
  unfold cmdSet.body specSet
  by_cases hk : k.length > 255
  · simp only [if_pos hk]; exact ⟨D, hD0⟩
  simp only [if_neg hk]
  rw [lock_cases]
  cases hr : writeRefusal c.conf c.writable with
  | some msg => exact ⟨D, hD0⟩
  | none =>
    simp only
    have hentry : (if k.length ≠ 0 then indexGet br s c.u k else none) =
        (liveGet G k).map (Loc.entry c.u) := by
      by_cases h0 : k.length = 0
      · rw [List.length_eq_zero_iff.1 h0]; simp [liveGet_nil h]
      · rw [if_pos h0, h.indexGet]
    rw [hentry, (h.sizeOf k).1, h.total_eq]
    have hget : ((liveGet G k).map (Loc.entry c.u)).isSome = ((absKV G).get k).isSome := by
      rw [absKV_get]; simp
    rw [hget]
    have hts := timestampFromSet_lt c.now argv 3
    have hqq := overQuota_iff (conf := c.conf) (m := absKV G) (len := p.length) k hq (by
      rw [← h.total_eq]; have := h.total; unfold totalData at htot; omega) (h.sizeOf k).2
    rw [hqq]
    by_cases hworm : (((absKV G).get k).isSome && c.conf.worm) = true
    · simp only [hworm, if_true]; exact ⟨D, hD0⟩
    · have hworm' : (((absKV G).get k).isSome && c.conf.worm) = false := by simpa using hworm
      simp only [hworm', Bool.false_eq_true, if_false]
      by_cases hover : c.conf.maxsize ≠ 0 ∧ (absKV G).total - (absKV G).sizeOf k + p.length > c.conf.maxsize
      · rw [if_pos hover]
        simp only [decide_eq_true hover, if_true]
        exact ⟨D, hD0⟩
      · rw [if_neg hover]
        simp only [decide_eq_false hover, Bool.false_eq_true, if_false, h.mode]
        obtain ⟨G1, j1, j2, j3, j4, j5, j6⟩ := jumpIfFull_spec h hcap c.limit p.length hlim
        have hD1 : ∃ D1, ULog (jumpIfFull c.limit s p.length) D1 (absKV G1) W := by
          rw [j2]
          unfold jumpIfFull
          split
          · exact ⟨_, jump_data h hcap hD⟩
          · exact ⟨D, hD⟩
        obtain ⟨D1, hD1⟩ := hD1
        have hgoal := setHandlerUser_data j1 hD1 hd hpy k p _ (by omega) hp hts j4
        rw [j2, j3] at hgoal
        obtain ⟨D', hD'⟩ := hgoal
        refine ⟨D', ?_⟩
        have hok : (!(c.io.dhdr.ok && c.io.dpay.ok)) = false := by rw [hd, hpy]; rfl
        rw [hok]
        simp only [Bool.false_eq_true, if_false]
        revert hD'
        by_cases h1 : k = []
        · rw [if_pos h1, if_pos h1, if_pos h1]; exact id
        · rw [if_neg h1, if_neg h1, if_neg h1]
          by_cases h2 : ((absKV G).get k).map (·.payload) = some p
          · rw [if_pos h2, if_pos h2, if_pos h2]; exact id
          · rw [if_neg h2, if_neg h2, if_neg h2]; exact id

theorem cmdDel_body_data {c : Ctx} {br : Branches} {s : Store} {G : Log} (h : UInv br c.u s G) {D : List (List DRec)}
    {W : List Write} (hD : ULog s D (absKV G) W) (hd : c.io.dhdr = none) (hpy : c.io.dpay = none) (argv : List Bytes) (k : Bytes) :
    ∃ D', ULog (cmdDel.body c br s argv k).2.1 D'
      (specDel c.conf c.writable (c.io.dhdr.ok && c.io.dpay.ok) (absKV G) k).1
      (W ++ ackDel k (timestampFromSet c.now argv 2) (specDel c.conf c.writable (c.io.dhdr.ok && c.io.dpay.ok) (absKV G) k).2) := by
  have hD0 : ULog s D (absKV G) (W ++ []) := by rw [List.append_nil]; exact hD
  unfold cmdDel.body specDel
  by_cases hk : k.length > 255
  · simp only [if_pos hk]; exact ⟨D, hD0⟩
  simp only [if_neg hk]
  rw [lock_cases]
  cases hr : writeRefusal c.conf c.writable with
  | some msg => exact ⟨D, hD0⟩
  | none =>
    simp only
    rw [h.indexGet, absKV_get]
    cases hg : liveGet G k with
    | none => simp only [Option.map_none, Option.isNone_none, if_true]; exact ⟨D, hD0⟩
    | some l =>
      simp only [Option.map_some, Option.isNone_some, Bool.false_eq_true, if_false]
      by_cases hw : c.conf.worm = true
      · simp only [hw, if_true]; exact ⟨D, hD0⟩
      · have hw' : c.conf.worm = false := by simpa using hw
        have hok : (!(c.io.dhdr.ok && c.io.dpay.ok)) = false := by rw [hd, hpy]; rfl
        obtain ⟨hl, hlid⟩ := liveGet_some hg
        have hid : (l.entry c.u).id = k := hlid
        have hdi := dataInsert_good (s := s) hd hpy ⟨(l.entry c.u).id, [], s.dprev % 2 ^ 32, true, timestampFromSet c.now argv 2⟩ rfl
        simp only [if_true] at hdi
        simp only [hw', Bool.false_eq_true, if_false, hok, hdi]
        have hstep : DRec.step (absKV G) ⟨(l.entry c.u).id, [], s.dprev % 2 ^ 32, true, timestampFromSet c.now argv 2⟩ =
            some ((absKV G).del k) := by
          simp only [DRec.step, hid, if_true]
          rw [absKV_get, hg]; rfl
        have h0 := h.ids l (live_mem hl)
        have hwf := ((h.recs l (live_mem hl)).wf).2.1
        have hrec := fun (t : Store) => hD.append (t := t) (by rw [← hD.rep.length, h.dlen, h.did]; exact h.iid)
          (r := ⟨(l.entry c.u).id, [], s.dprev % 2 ^ 32, true, timestampFromSet c.now argv 2⟩)
          ⟨h0, hwf, by simp, Nat.mod_lt _ (by decide), timestampFromSet_lt _ _ _, fun _ => rfl⟩ hstep (by simp) rfl (by simp)
        have hwhat : DRec.what ⟨(l.entry c.u).id, [], s.dprev % 2 ^ 32, true, timestampFromSet c.now argv 2⟩ = ⟨k, none, timestampFromSet c.now argv 2⟩ := by
          simp only [DRec.what, if_true, hid]
        rw [hwhat] at hrec
        split
        · exact ⟨_, hrec _ rfl rfl⟩
        · have hsame := (indexDelete_same br { s with dfiles := appendFile s.dfiles s.dataid (DRec.enc ⟨(l.entry c.u).id, [], s.dprev % 2 ^ 32, true, timestampFromSet c.now argv 2⟩), dprev := fileLen s.dfiles s.dataid } c.u c.io (l.entry c.u)).df
          have hdp := indexDelete_dprev br { s with dfiles := appendFile s.dfiles s.dataid (DRec.enc ⟨(l.entry c.u).id, [], s.dprev % 2 ^ 32, true, timestampFromSet c.now argv 2⟩), dprev := fileLen s.dfiles s.dataid } c.u c.io (l.entry c.u)
          split
          · exact ⟨_, hrec _ hsame hdp⟩
          · exact ⟨_, hrec _ hsame hdp⟩

theorem command_data {c : Ctx} {br : Branches} {s : Store} {G : Log} (h : UInv br c.u s G) {D : List (List DRec)}
    {W : List Write} (hD : ULog s D (absKV G) W) (hc : CtxOK c) (hd : c.io.dhdr = none) (hpy : c.io.dpay = none)
    (d : DsCmd) (argv : List Bytes) (ha : ArgsOK argv) (hroom : Room s.ifiles.length (totalData s) 1) :
    ∃ D', ULog (dsCommand c br s d argv).2.1 D' (specCmd c (absKV G) d argv).1
      (W ++ acked (.cmd c d argv, (specCmd c (absKV G) d argv).2.getD .nil)) := by
  have hcap : s.ifiles.length < 2 ^ 32 := by have := hroom.1; omega
  have htot : totalData s < 2 ^ 63 := by have := hroom.2; omega
  have none1 : ∀ {t : Store} {m : KV} (d : DsCmd) (r : Reply), d ≠ .set → d ≠ .del → t.dfiles = s.dfiles → t.dprev = s.dprev →
      m = absKV G → ∃ D', ULog t D' m (W ++ acked (.cmd c d argv, r)) := by
    intro t m d r h1 h2 h3 h4 h5
    rw [acked_other h1 h2, List.append_nil, h5]
    exact ⟨D, hD.congr h3 h4⟩
  have refuse : ∀ (e : NsEvent) (m : String), ∃ D', ULog s D' (absKV G) (W ++ acked (e, .err m)) := by
    intro e m
    rw [acked_err, List.append_nil]
    exact ⟨D, hD⟩
  cases d with
  | set =>
    have key : ∀ k p, p ∈ argv → ∃ D', ULog (cmdSet.body c br s argv k p).2.1 D'
        (specSet c.conf c.writable (c.io.dhdr.ok && c.io.dpay.ok) (absKV G) k p (timestampFromSet c.now argv 3)).1
        (W ++ ackSet p (timestampFromSet c.now argv 3) (specSet c.conf c.writable (c.io.dhdr.ok && c.io.dpay.ok) (absKV G) k p (timestampFromSet c.now argv 3)).2) := by
      intro k p hp
      have hl := ha.size p hp
      exact cmdSet_body_data h hD hd hpy hc.limit hcap htot hc.quota argv k p hl
    obtain ⟨n, rest, rfl, hne⟩ := ha.name
    unfold dsCommand cmdSet specCmd
    match rest with
    | [] => exact refuse _ _
    | [_] => exact refuse _ _
    | [k, p] => rw [acked_set]; exact key k p (by simp)
    | [k, p, t] =>
      rw [acked_set]
      by_cases had : c.admin = true
      · simp only [had, if_true]
        exact key k p (by simp)
      · simp only [had]
        have := refuse (.cmd c .set [n, k, p, t]) "Permission denied"
        rw [acked_set] at this
        exact this
    | _ :: _ :: _ :: _ :: _ => exact refuse _ _
  | del =>
    obtain ⟨n, rest, rfl, hne⟩ := ha.name
    unfold dsCommand cmdDel specCmd
    match rest with
    | [] => exact refuse _ _
    | [k] =>
      by_cases hk : k = []
      · subst hk
        simp only [argsValidate, errArg, List.length_cons, List.length_nil, List.any_cons, List.isEmpty_nil, if_true]
        simp only [Bool.true_or, Bool.or_true, ne_eq, not_true_eq_false, if_false, if_true]
        exact refuse _ _
      · have : argsValidate [n, k] 2 = none := by simp [argsValidate, hk, hne]
        simp only [this, if_neg hk]
        rw [acked_del]
        exact cmdDel_body_data h hD hd hpy _ k
    | [k, t] =>
      rw [acked_del]
      by_cases had : c.admin = true
      · simp only [had, if_true]
        exact cmdDel_body_data h hD hd hpy _ k
      · simp only [had]
        have := refuse (.cmd c .del [n, k, t]) "Permission denied"
        rw [acked_del] at this
        exact this
    | k :: t :: x :: xs =>
      have : argsValidate (n :: k :: t :: x :: xs) 2 = some errArgs := by simp [argsValidate]
      simp only [this]
      exact refuse _ _
  | nsjump =>
    simp only [dsCommand, cmdNsjump, specCmd]
    rw [acked_other (by simp) (by simp), List.append_nil]
    by_cases had : c.admin = true
    · simp only [had, if_true]
      exact ⟨_, jump_data h hcap hD⟩
    · simp only [had]
      exact ⟨D, hD⟩
  | get => exact none1 _ _ (by simp) (by simp) rfl rfl (specRead_fst _)
  | «exists» => exact none1 _ _ (by simp) (by simp) rfl rfl (specRead_fst _)
  | check => exact none1 _ _ (by simp) (by simp) rfl rfl (specRead_fst _)
  | length => exact none1 _ _ (by simp) (by simp) rfl rfl (specRead_fst _)
  | keytime => exact none1 _ _ (by simp) (by simp) rfl rfl (specRead_fst _)
  | index =>
    simp only [dsCommand]
    rcases cmdIndex_cases c s argv with h' | h' <;> rw [h'] <;> exact none1 _ _ (by simp) (by simp) rfl rfl rfl
  | _ => exact none1 _ _ (by simp) (by simp) rfl rfl rfl

theorem run_data {cfg : Option Mode} (hcfg : cfg = none ∨ cfg = some .user) {u : Nat} {br br' : Branches}
    {s s' : Store} {tr : List (NsEvent × Reply)} (hr : NsRun cfg u br s tr br' s') {G : Log}
    (h : UInv br u s G) {D : List (List DRec)} {W : List Write} (hD : ULog s D (absKV G) W) (hev : ∀ x ∈ tr, EvOK x.1)
    (hdt : ∀ x ∈ tr, WholeData x.1) {n : Nat} (hroom : Room s.ifiles.length (totalData s) (tr.length + n)) :
    ∃ G' D', UInv br' u s' G' ∧ ULog s' D' (absKV G') (W ++ tr.flatMap acked) ∧ absKV G' = specRun (absKV G) (tr.map (·.1)) ∧
      Room s'.ifiles.length (totalData s') n := by
  induction hr generalizing G D W with
  | nil br s => exact ⟨G, D, h, by simpa using hD, rfl, hroom.mono (by simp)⟩
  | @cmd c d argv br br1 br2 s s1 s2 r tr hu h1 h2 ih =>
    subst hu
    obtain ⟨hc, ha⟩ := hev _ (List.mem_cons_self ..)
    obtain ⟨hd1, hd2⟩ : c.io.dhdr = none ∧ c.io.dpay = none := hdt _ (List.mem_cons_self ..)
    have hrm := hroom.mono (m := 1) (by simp only [List.length_cons]; omega)
    obtain ⟨G1, i1, i2, i3, -⟩ := h.command hc d argv ha hrm
    obtain ⟨D1, hD1⟩ := command_data h hD hc hd1 hd2 d argv ha hrm
    have hg := dsCommand_grows c br s d argv (2 ^ 23) ha.size
    rw [h1] at i1 i3 hg hD1
    rw [← i2] at hD1
    have hak : acked (.cmd c d argv, (specCmd c (absKV G) d argv).2.getD .nil) = acked (.cmd c d argv, r) := by
      by_cases hds : d = .set ∨ d = .del
      · have : (specCmd c (absKV G) d argv).2.isSome = true := by
          rcases hds with rfl | rfl
          · unfold specCmd; simp only; split <;> first | rfl | (split <;> rfl)
          · unfold specCmd; simp only; split <;> first | rfl | (split <;> rfl)
        obtain ⟨r', hr'⟩ := Option.isSome_iff_exists.1 this
        rw [hr', ← i3 r' hr']; rfl
      · rw [acked_other (fun e => hds (.inl e)) (fun e => hds (.inr e)), acked_other (fun e => hds (.inl e)) (fun e => hds (.inr e))]
    rw [hak] at hD1
    obtain ⟨G', D', j1, j2, j3, j4⟩ := ih i1 hD1 (fun x hx => hev x (List.mem_cons_of_mem _ hx)) (fun x hx => hdt x (List.mem_cons_of_mem _ hx))
      (Room.step (n := tr.length + n) (hroom.mono (by simp; omega)) hg (by omega))
    exact ⟨G', D', j1, by rw [List.flatMap_cons, ← List.append_assoc]; exact j2, by rw [j3, i2]; rfl, j4⟩
  | @foreign br br1 br2 s s2 tr h1 h2 ih =>
    exact ih (h.foreign h1) hD (fun x hx => hev x (List.mem_cons_of_mem _ hx)) (fun x hx => hdt x (List.mem_cons_of_mem _ hx))
      (hroom.mono (by simp))
  | @reload br br1 br2 s s1 s2 tr h1 h2 ih =>
    have hlen := h.irep.length
    obtain ⟨b, t, k1, k2, k3, k4, -⟩ := h.reload cfg hcfg (by have := hroom.1; omega)
    rw [h1] at k1
    injection k1 with k1 k1'
    subst k1; subst k1'
    exact ih k2 (hD.load h1 k4 (by rw [k2.did, k2.iid, ← hD.rep.length, h.dlen])) (fun x hx => hev x (List.mem_cons_of_mem _ hx))
      (fun x hx => hdt x (List.mem_cons_of_mem _ hx)) (by rw [k3, totalData, k4]; exact hroom.mono (by simp))

/-- The data files after an execution. -/
theorem UserRun.data {cfg : Option Mode} {u : Nat} {tr : List (NsEvent × Reply)} {br' : Branches} {s' : Store}
    (h : UserRun cfg u tr br' s') (hdt : ∀ x ∈ tr, WholeData x.1) :
    ∃ G D, UInv br' u s' G ∧ ULog s' D (absKV G) (tr.flatMap acked) ∧ absKV G = specRun [] (tr.map (·.1)) ∧
      Room s'.ifiles.length (totalData s') (maxEvents - tr.length) := by
  obtain ⟨br0, br, s, hbr, h0, hr⟩ := h.run
  rw [freshNs_eq] at h0
  injection h0 with h0 h0'
  have hm : cfg.getD .user = .user := by rcases h.hcfg with rfl | rfl <;> rfl
  rw [hm] at h0'
  subst h0; subst h0'
  have hlen := h.len
  have key := run_data h.hcfg hr (freshStore_uinv br0 u hbr) (D := [[]]) (W := []) (n := maxEvents - tr.length) ?_ h.ev hdt (by
    have : tr.length + (maxEvents - tr.length) = maxEvents := by omega
    rw [this]
    unfold maxEvents
    constructor
    · simp [freshStore]
    · simp [freshStore, totalData])
  · simpa [absKV, live, locs, locsFrom, locsIn] using key
  refine ⟨⟨by simp [freshStore, encDFile], by simp, ?_, ?_⟩, by simp [freshStore, encDFile], by simp, by simp, ?_, ?_, by simp⟩
  · intro g hg
    rw [List.mem_singleton.1 hg]
    intro a r b hab
    simp at hab
  · simp [replayKV, absKV, live, locs, locsFrom, locsIn]
  · intro g hg
    rw [List.mem_singleton.1 hg]
    intro a x y b hab
    simp at hab
  · intro D0 a x e
    obtain ⟨-, e2⟩ := List.append_inj' (s₁ := []) (t₁ := [[]]) e rfl
    simp at e2

end Zdb
