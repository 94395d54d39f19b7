/-
The value of one key in memory, whatever happens to the index files.
-/
import Verif.Lemmas.UserRun
import Verif.Lemmas.DataExt
import Verif.Lemmas.TagsUsed
import Verif.Spec.Fault
namespace Zdb

/-- The entries of namespace `u` for key `k`. -/
def keyEnts (br : Branches) (u : Nat) (k : Bytes) : List Entry :=
  (nsBranch br u (keyHash k)).filter (fun e => e.id == k)

theorem brGet_keyEnts (br : Branches) (u : Nat) (k : Bytes) : brGet br u k = (keyEnts br u k).head? := by
  rw [brGet_eq, find?_eq_head?_filter]; rfl

theorem keyEnts_append (br : Branches) (e : Entry) (k : Bytes) :
    keyEnts (brAppend br e) e.ns k = keyEnts br e.ns k ++ (if e.id = k then [e] else []) := by
  unfold keyEnts
  rw [nsBranch_append, List.filter_append]
  congr 1
  by_cases h : e.id = k
  · simp [h]
  · by_cases h2 : keyHash k = keyHash e.id
    · simp [h, h2]
    · simp [h, h2]

theorem replaceFirst_filter_ne {l : List Entry} {id k : Bytes} {e' : Entry} (he : e'.id = id) (hk : k ≠ id) :
    (replaceFirst (fun e => e.id == id) e' l).filter (fun e => e.id == k) = l.filter (fun e => e.id == k) := by
  induction l with
  | nil => rfl
  | cons a l ih =>
    by_cases h1 : a.id = id
    · have h3 : ¬ id = k := fun h => hk h.symm
      simp [replaceFirst, h1, he, h3]
    · simp [replaceFirst, h1, List.filter_cons, ih]

theorem replaceFirst_filter_eq {l : List Entry} {k : Bytes} {e e' : Entry} (he : e'.id = k)
    (h : l.filter (fun e => e.id == k) = [e]) :
    (replaceFirst (fun e => e.id == k) e' l).filter (fun e => e.id == k) = [e'] := by
  induction l with
  | nil => cases h
  | cons a l ih =>
    by_cases h1 : a.id = k
    · have h2 : l.filter (fun e => e.id == k) = [] := by simpa [h1] using congrArg List.tail h
      simp only [replaceFirst, h1, beq_self_eq_true, if_true, List.filter_cons, he, h2]
    · have h2 : l.filter (fun e => e.id == k) = [e] := by simpa [h1] using h
      simp [replaceFirst, h1, ih h2]

theorem keyEnts_update_ne (br : Branches) {u : Nat} {id k : Bytes} {e' : Entry} (hu : e'.ns = u)
    (he : e'.id = id) (hk : k ≠ id) : keyEnts (brUpdate br u id e') u k = keyEnts br u k := by
  unfold keyEnts
  rw [nsBranch_update _ _ _ _ _ hu]
  split
  · exact replaceFirst_filter_ne he hk
  · rfl

theorem keyEnts_update_eq {br : Branches} {u : Nat} {k : Bytes} {e e' : Entry} (hu : e'.ns = u)
    (he : e'.id = k) (h : keyEnts br u k = [e]) : keyEnts (brUpdate br u k e') u k = [e'] := by
  unfold keyEnts at *
  rw [nsBranch_update _ _ _ _ _ hu, if_pos rfl]
  exact replaceFirst_filter_eq he h

theorem keyEnts_remove_ne (br : Branches) (u : Nat) {id k : Bytes} (hk : k ≠ id) :
    keyEnts (brRemove br u id) u k = keyEnts br u k := by
  unfold keyEnts
  rw [nsBranch_remove]
  split
  · generalize nsBranch br u (keyHash k) = l
    induction l with
    | nil => rfl
    | cons a l ih =>
      by_cases h1 : a.id = id
      · have h3 : ¬ id = k := fun h => hk h.symm
        simp [h1, h3]
      · simp [h1, List.filter_cons, ih]
  · rfl

theorem keyEnts_remove_eq {br : Branches} {u : Nat} {k : Bytes} {e : Entry} (h : keyEnts br u k = [e]) :
    keyEnts (brRemove br u k) u k = [] := by
  unfold keyEnts at *
  rw [nsBranch_remove, if_pos rfl]
  generalize nsBranch br u (keyHash k) = l at *
  induction l with
  | nil => cases h
  | cons a l ih =>
    by_cases h1 : a.id = k
    · have h2 : l.filter (fun e => e.id == k) = [] := by simpa [h1] using congrArg List.tail h
      simp only [List.eraseP_cons, h1, beq_self_eq_true, cond_true, h2]
    · have h2 : l.filter (fun e => e.id == k) = [e] := by simpa [h1] using h
      have h3 : (a.id == k) = false := by simpa using h1
      rw [List.eraseP_cons_of_neg (by simp [h1]), List.filter_cons_of_neg (by simp [h1])]
      exact ih h2

/-- The record an entry points to. -/
def entryRec (e : Entry) (p : Bytes) : Rec :=
  ⟨{ itemOf 0 e with flags := 0, dataid := 0, parentid := 0, parentoff := 0 }, p⟩

/-- Entry `e` is live and leads to payload `p` in the data files. -/
structure Stored (fs : List Bytes) (e : Entry) (p : Bytes) : Prop where
  live : isDeleted e.flags = false
  ok : RecOK fs e.dataid (entryRec e p)

/-- Key `k` has the value `w`. -/
def HasVal (br : Branches) (u : Nat) (fs : List Bytes) (k : Bytes) : Option Bytes → Prop
  | none => keyEnts br u k = []
  | some p => ∃ e, keyEnts br u k = [e] ∧ Stored fs e p

theorem RecOK.data_mono {fs fs' : List Bytes} {df : Nat} {r : Rec} (h : RecOK fs df r)
    (hm : ∀ off b, DataAt fs df off b → DataAt fs' df off b) : RecOK fs' df r :=
  ⟨h.wf, h.len, h.crc, h.flags, h.data.elim fun prev hd => ⟨prev, hd.1, hm _ _ hd.2⟩⟩

theorem DataExt.dataAt {s t : Store} (h : DataExt s t) {i off : Nat} {b : Bytes} (hd : DataAt s.dfiles i off b) :
    DataAt t.dfiles i off b := by
  obtain ⟨pre, post, h1, h2⟩ := hd
  obtain ⟨x, hx, -⟩ := h.2 i _ h1
  exact ⟨pre, post ++ x, by rw [hx]; simp, h2⟩

theorem HasVal.ext {br : Branches} {u : Nat} {s t : Store} {k : Bytes} {w : Option Bytes}
    (h : HasVal br u s.dfiles k w) (he : DataExt s t) : HasVal br u t.dfiles k w := by
  cases w with
  | none => exact h
  | some p =>
    obtain ⟨e, h1, h2⟩ := h
    exact ⟨e, h1, h2.live, h2.ok.data_mono (fun _ _ => he.dataAt)⟩

theorem HasVal.congr {br br' : Branches} {u : Nat} {fs : List Bytes} {k : Bytes} {w : Option Bytes}
    (h : HasVal br u fs k w) (he : keyEnts br' u k = keyEnts br u k) : HasVal br' u fs k w := by
  cases w with
  | none => exact he.trans h
  | some p =>
    obtain ⟨e, h1, h2⟩ := h
    exact ⟨e, he.trans h1, h2⟩

/-- What reads see. -/
theorem HasVal.get {br : Branches} {u : Nat} {s : Store} {k : Bytes} {w : Option Bytes}
    (h : HasVal br u s.dfiles k w) (hm : s.mode = .user) :
    (w = none ∧ indexGet br s u k = none) ∨
    ∃ e p, w = some p ∧ indexGet br s u k = some e ∧ keyEnts br u k = [e] ∧ Stored s.dfiles e p := by
  cases w with
  | none =>
    left
    have h' : keyEnts br u k = [] := h
    simp [indexGet, hm, brGet_keyEnts, h']
  | some p =>
    obtain ⟨e, h1, h2⟩ := h
    exact Or.inr ⟨e, p, rfl, by simp [indexGet, hm, brGet_keyEnts, h1, h2.live], h1, h2⟩

theorem mem_keyEnts {br : Branches} {u : Nat} {k : Bytes} {e : Entry} (h : keyEnts br u k = [e]) :
    e.ns = u ∧ e.id = k := by
  have : e ∈ keyEnts br u k := by rw [h]; simp
  unfold keyEnts nsBranch at this
  simp only [List.mem_filter, beq_iff_eq] at this
  exact ⟨this.1.2, this.2⟩

theorem indexGet_mem {br : Branches} {s : Store} {u : Nat} {k : Bytes} {e : Entry} (hm : s.mode = .user)
    (h : indexGet br s u k = some e) : e.ns = u ∧ e.id = k ∧ isDeleted e.flags = false := by
  simp only [indexGet, hm] at h
  have hb : ∀ x, brGet br u k = some x → x.ns = u ∧ x.id = k := by
    intro x hx
    unfold brGet at hx
    have := List.find?_some hx
    simp only [Entry.is, Bool.and_eq_true, beq_iff_eq] at this
    exact this
  cases hg : brGet br u k with
  | none => simp [hg] at h
  | some x =>
    rw [hg] at h
    by_cases hd : isDeleted x.flags = true
    · simp [hd] at h
    · simp only [hd] at h
      injection h with h
      subst h
      exact ⟨(hb _ hg).1, (hb _ hg).2, by simpa using hd⟩

/-- The entry made for a record just written leads to it. -/
theorem Written.stored {s s' : Store} {id p : Bytes} {ts off : Nat} (h : Written s s' id p 0 ts off)
    (hoff : off < 2 ^ 32) (hid : id.length < 256) (hp : p.length < 2 ^ 32) (hts : ts < 2 ^ 32) {e : Entry}
    (h1 : e.id = id) (h2 : e.offset = off % 2 ^ 32) (h3 : e.length = p.length % 2 ^ 32)
    (h4 : e.dataid = s.dataid) (h5 : e.crc = crc32 p) (h6 : e.timestamp = ts % 2 ^ 32) (h7 : e.flags = 0) :
    Stored s'.dfiles e p := by
  rw [Nat.mod_eq_of_lt hoff] at h2
  rw [Nat.mod_eq_of_lt hp] at h3
  rw [Nat.mod_eq_of_lt hts] at h6
  have hcrc := crc32_lt p
  refine ⟨by rw [h7]; rfl, ?_, h3, h5, Or.inl rfl, ?_⟩
  · simp only [Item.WF, entryRec, itemOf, h1, h5]
    exact ⟨trivial, hid, by omega, by omega, by decide, by decide, by decide, by omega, hcrc, by decide, by decide⟩
  · obtain ⟨prev, hprev, hd⟩ := h.data
    refine ⟨prev, hprev, ?_⟩
    simp only [entryRec, itemOf, recHdr, h1, h2, h3, h4, h5, h6]
    simpa using hd

theorem deleteDisk_id (s : Store) (io : Io) (e : Entry) :
    (deleteDisk s io e).1.indexid = s.indexid ∧ (deleteDisk s io e).1.dfiles = s.dfiles ∧
      (deleteDisk s io e).1.mode = s.mode := by
  unfold deleteDisk
  cases s.ifiles[e.indexid]? with
  | none => exact ⟨rfl, rfl, rfl⟩
  | some f =>
    cases h : readExact f e.idxoffset (itemHdr + e.id.length) with
    | none => simp only [h]; simp
    | some b =>
      simp only [h]
      split <;> exact ⟨rfl, rfl, rfl⟩

theorem appendEntry_res (s : Store) (io : Io) (e : Entry) :
    (appendEntry s io e).2.2 = io.iapp.ok ∧ (appendEntry s io e).1.dfiles = s.dfiles ∧
      (appendEntry s io e).1.indexid = s.indexid ∧
      (appendEntry s io e).2.1 =
        { e with
          idxoffset := fileLen s.ifiles s.indexid % 2 ^ 32
          indexid := s.indexid
          flags := if io.iapp.ok then e.flags else setDeleted e.flags } := by
  unfold appendEntry
  by_cases h : io.iapp.ok = true
  · simp only [h, if_true]; simp
  · simp only [h]; simp

/-- A SET, whatever fails. -/
theorem setHandlerUser_val {c : Ctx} {br : Branches} {s s0 : Store} (hm : s.mode = .user) (hm0 : s0.mode = .user)
    (hs : InStep s) (hfl : fileLen s.dfiles s.dataid ≤ 2 ^ 31) {id p : Bytes} (hid : id.length ≤ 255)
    (hp : p.length < 2 ^ 32) {ts : Nat} (hts : ts < 2 ^ 32) {q : Bytes} {w : Option Bytes}
    (h : HasVal br c.u s.dfiles q w) {ex : Option Entry} (hex : id ≠ [] → ex = indexGet br s0 c.u id) :
    ((setHandlerUser c br s id p ts ex).2.2 = .bulk id ∧
      HasVal (setHandlerUser c br s id p ts ex).1 c.u (setHandlerUser c br s id p ts ex).2.1.dfiles q
        (if id = q then some p else w)) ∨
    ((∀ b, (setHandlerUser c br s id p ts ex).2.2 ≠ .bulk b) ∧
      (HasVal (setHandlerUser c br s id p ts ex).1 c.u (setHandlerUser c br s id p ts ex).2.1.dfiles q w ∨
       (id = q ∧ w.isSome = true ∧
        (setHandlerUser c br s id p ts ex).2.2 = .err "Cannot write index right now"))) := by
  unfold setHandlerUser
  by_cases h0 : id.length = 0
  · rw [if_pos h0]; exact Or.inr ⟨by simp, Or.inl h⟩
  rw [if_neg h0]
  have hex := hex (by intro h; simp [h] at h0)
  by_cases h1 : upToDate s ex p = true
  · rw [if_pos h1]; exact Or.inr ⟨by simp, Or.inl h⟩
  rw [if_neg h1]
  have hlt : s.dataid < s.dfiles.length := by have := hs.d; omega
  obtain ⟨b, ha, -⟩ := dataInsert_app s c.io id p 0 (crc32 p) ts
  have hv := h.ext (ha.ext hs).ext
  cases hio : (c.io.dhdr.ok && c.io.dpay.ok) with
  | false =>
    have h2 := (dataInsert_fail (s := s) hio id p 0 (crc32 p) ts).1
    generalize dataInsert s c.io id p 0 (crc32 p) ts = x at *
    obtain ⟨s1, off⟩ := x
    simp only at h2 ⊢
    rw [if_pos h2]
    exact Or.inr ⟨by simp, Or.inl hv⟩
  | true =>
    have h2 := dataInsert_ok (s := s) hio ⟨_, List.getElem?_eq_getElem hlt⟩ id p 0 (crc32 p) ts rfl
    generalize dataInsert s c.io id p 0 (crc32 p) ts = x at *
    obtain ⟨s1, off⟩ := x
    simp only at h2 ha hv ⊢
    by_cases hoff : off = 0
    · rw [if_pos hoff]; exact Or.inr ⟨by simp, Or.inl hv⟩
    rw [if_neg hoff]
    have hoff' : off < 2 ^ 32 := by rw [h2.pos]; omega
    have hiid : s1.indexid = s.dataid := by rw [ha.iid]; exact hs.same.symm
    cases ex with
    | none =>
      simp only
      unfold insertUser insertMemUser
      have hr := appendEntry_res s1 c.io ((⟨id, off, p.length, crc32 p, 0, ts⟩ : SetReq).entry c.u)
      generalize appendEntry s1 c.io ((⟨id, off, p.length, crc32 p, 0, ts⟩ : SetReq).entry c.u) = y at hr ⊢
      obtain ⟨s2, e, ok⟩ := y
      obtain ⟨r1, r2, r3, r4⟩ := hr
      simp only at r1 r2 r3 r4 ⊢
      cases hok : ok with
      | false =>
        simp only [Bool.false_eq_true, if_false]
        rw [r2]
        exact Or.inr ⟨by simp, Or.inl hv⟩
      | true =>
        rw [← r1, hok] at r4
        simp only [if_true] at r4 ⊢
        refine Or.inl ⟨trivial, ?_⟩
        rw [r2]
        generalize hE : ({ e with ns := c.u, dataid := s2.indexid } : Entry) = E
        have hk := keyEnts_append br E q
        have hei : E.id = id := by rw [← hE, r4]; rfl
        have hen : E.ns = c.u := by rw [← hE]
        rw [hei, hen] at hk
        by_cases hq : id = q
        · subst hq
          rw [if_pos rfl] at hk ⊢
          have hnil : keyEnts br c.u id = [] := by
            cases w with
            | none => exact h
            | some v =>
              exfalso
              obtain ⟨e', h1', h2'⟩ := h
              simp [indexGet, hm0, brGet_keyEnts, h1', h2'.live] at hex
          rw [hnil, List.nil_append] at hk
          refine ⟨_, hk, h2.stored hoff' (by omega) hp hts ?_ ?_ ?_ ?_ ?_ ?_ ?_⟩
          all_goals simp only [← hE, r4, SetReq.entry]
          rw [r3, hiid]
        · rw [if_neg hq] at hk ⊢
          exact hv.congr (by rw [hk, List.append_nil])
    | some ex =>
      simp only
      obtain ⟨hx1, hx2, hx3⟩ := indexGet_mem hm0 hex.symm
      unfold updateUser
      simp only
      have hdd := deleteDisk_id s1 c.io ex
      generalize deleteDisk s1 c.io ex = z at hdd ⊢
      obtain ⟨s2, okd⟩ := z
      obtain ⟨d1, d2, d3⟩ := hdd
      simp only at d1 d2 ⊢
      generalize hu : updatedEntry s2 ex ((⟨id, off, p.length, crc32 p, 0, ts⟩ : SetReq).entry c.u) = ue
      generalize hst : updateStats s2 ex ((⟨id, off, p.length, crc32 p, 0, ts⟩ : SetReq).entry c.u) = s3
      have hs3 : s3.dfiles = s1.dfiles := by rw [← hst, ← d2]; rfl
      have hr := appendEntry_res s3 c.io ue
      generalize appendEntry s3 c.io ue = y at hr ⊢
      obtain ⟨s4, e, ok⟩ := y
      obtain ⟨r1, r2, r3, r4⟩ := hr
      simp only at r1 r2 r3 r4 ⊢
      have e1 : e.ns = c.u := by rw [r4, ← hu]; exact hx1
      have e2 : e.id = id := by rw [r4, ← hu]; exact hx2
      cases hok : ok with
      | false =>
        simp only [Bool.false_eq_true, if_false]
        refine Or.inr ⟨by simp, ?_⟩
        by_cases hq : id = q
        · subst hq
          refine Or.inr ⟨rfl, ?_, trivial⟩
          cases w with
          | some v => rfl
          | none =>
            have h' : keyEnts br c.u id = [] := h
            simp [indexGet, hm0, brGet_keyEnts, h'] at hex
        · left
          rw [r2, hs3]
          exact hv.congr (by rw [hx2]; exact keyEnts_update_ne br e1 e2 (fun h => hq h.symm))
      | true =>
        rw [← r1, hok] at r4
        simp only [if_true] at r4 ⊢
        refine Or.inl ⟨trivial, ?_⟩
        rw [r2, hs3, hx2]
        by_cases hq : id = q
        · subst hq
          rw [if_pos rfl]
          have hone : keyEnts br c.u id = [ex] := by
            cases w with
            | some v =>
              obtain ⟨e', h1', h2'⟩ := h
              simp only [indexGet, hm0, brGet_keyEnts, h1', List.head?_cons, h2'.live] at hex
              simp only [Bool.false_eq_true, if_false, Option.some.injEq] at hex
              rw [h1', hex]
            | none =>
              have h' : keyEnts br c.u id = [] := h
              simp [indexGet, hm0, brGet_keyEnts, h'] at hex
          refine ⟨e, keyEnts_update_eq e1 e2 hone, h2.stored hoff' (by omega) hp hts e2 ?_ ?_ ?_ ?_ ?_ ?_⟩
          all_goals simp only [r4, ← hu, SetReq.entry, updatedEntry]
          rw [d1, hiid]
        · rw [if_neg hq]
          exact hv.congr (keyEnts_update_ne br e1 e2 (fun h => hq h.symm))

theorem jumpIfFull_len {s : Store} (hs : InStep s) (hcap : s.indexid + 1 < 2 ^ 32) {limit : Nat}
    (hlim : limit ≤ 2 ^ 31) (len : Nat) :
    fileLen (jumpIfFull limit s len).dfiles (jumpIfFull limit s len).dataid ≤ 2 ^ 31 := by
  unfold jumpIfFull
  split
  · have hid : (s.indexid + 1) % 2 ^ 32 = s.indexid + 1 := Nat.mod_eq_of_lt hcap
    have e1 : (jump s).dfiles = dataInitialize s.dfiles ((s.indexid + 1) % 2 ^ 32) := by
      simp only [jump, dataOpen, indexSetId]
    have e4 : (jump s).dataid = (s.indexid + 1) % 2 ^ 32 := by simp only [jump, dataOpen, indexSetId]
    rw [hid] at e1 e4
    have h1 := hs.d
    have h2 := hs.same
    rw [dataInitialize, if_neg (by omega)] at e1
    rw [e1, e4, fileLen, List.getElem?_append_right (by omega)]
    have : s.indexid + 1 - s.dfiles.length = 0 := by omega
    rw [this]
    simp
  · omega

/-- SET. -/
theorem cmdSet_body_val {c : Ctx} {br : Branches} {s : Store} (hm : s.mode = .user) (hs : InStep s)
    (hcap : s.indexid + 1 < 2 ^ 32) (hlim : c.limit ≤ 2 ^ 31) (argv : List Bytes) {k p : Bytes}
    (hp : p.length < 2 ^ 32) {q : Bytes} {w : Option Bytes} (h : HasVal br c.u s.dfiles q w) :
    ((cmdSet.body c br s argv k p).2.2 = .bulk k ∧
      HasVal (cmdSet.body c br s argv k p).1 c.u (cmdSet.body c br s argv k p).2.1.dfiles q
        (if k = q then some p else w)) ∨
    ((∀ b, (cmdSet.body c br s argv k p).2.2 ≠ .bulk b) ∧
      (HasVal (cmdSet.body c br s argv k p).1 c.u (cmdSet.body c br s argv k p).2.1.dfiles q w ∨
       (k = q ∧ w.isSome = true ∧
        (cmdSet.body c br s argv k p).2.2 = .err "Cannot write index right now"))) := by
  unfold cmdSet.body
  split
  · exact Or.inr ⟨by simp, Or.inl h⟩
  split
  · exact Or.inr ⟨by simp [errReadOnly], Or.inl h⟩
  split
  · exact Or.inr ⟨by simp [errFrozen], Or.inl h⟩
  split
  · exact Or.inr ⟨by simp [errLocked], Or.inl h⟩
  rename_i hk _ _ _
  simp only
  generalize hex : (if k.length ≠ 0 then indexGet br s c.u k else none) = ex
  split
  · exact Or.inr ⟨by simp, Or.inl h⟩
  split
  · exact Or.inr ⟨by simp, Or.inl h⟩
  have h1 := jumpIfFull_ext hs hcap c.limit p.length
  have h2 := jumpIfFull_len hs hcap hlim p.length
  have h3 := (jumpIfFull_calm c.limit s p.length).1
  generalize jumpIfFull c.limit s p.length = t at *
  simp only [hm]
  refine setHandlerUser_val (s0 := s) (h3.trans hm) hm h1.step h2 (by omega) hp (timestampFromSet_lt _ _ _)
    (h.ext h1.ext) (fun hne => ?_)
  rw [← hex, if_pos (by simpa using hne)]

/-- DEL. -/
theorem cmdDel_body_val {c : Ctx} {br : Branches} {s : Store} (hm : s.mode = .user) (hs : InStep s)
    (argv : List Bytes) {k : Bytes} {q : Bytes} {w : Option Bytes} (h : HasVal br c.u s.dfiles q w) :
    ((cmdDel.body c br s argv k).2.2 = .ok ∧
      HasVal (cmdDel.body c br s argv k).1 c.u (cmdDel.body c br s argv k).2.1.dfiles q
        (if k = q then none else w)) ∨
    ((∀ b, (cmdDel.body c br s argv k).2.2 ≠ .simple b) ∧
      (HasVal (cmdDel.body c br s argv k).1 c.u (cmdDel.body c br s argv k).2.1.dfiles q w ∨
       (k = q ∧ (cmdDel.body c br s argv k).2.2 = .err "Cannot delete key (index)"))) := by
  unfold cmdDel.body
  split
  · exact Or.inr ⟨by simp, Or.inl h⟩
  split
  · exact Or.inr ⟨by simp [errReadOnly], Or.inl h⟩
  split
  · exact Or.inr ⟨by simp [errFrozen], Or.inl h⟩
  split
  · exact Or.inr ⟨by simp [errLocked], Or.inl h⟩
  cases hg : indexGet br s c.u k with
  | none => exact Or.inr ⟨by simp, Or.inl h⟩
  | some e =>
    simp only
    split
    · exact Or.inr ⟨by simp, Or.inl h⟩
    obtain ⟨hx1, hx2, hx3⟩ := indexGet_mem hm hg
    obtain ⟨b, ha, -⟩ := dataInsert_app s c.io e.id [] 1 0 (timestampFromSet c.now argv 2)
    have hv := h.ext (ha.ext hs).ext
    have hmode : (dataInsert s c.io e.id [] 1 0 (timestampFromSet c.now argv 2)).1.mode = .user := by
      rw [← hm]; unfold dataInsert; simp only; split
      · rfl
      · split <;> rfl
    generalize dataInsert s c.io e.id [] 1 0 (timestampFromSet c.now argv 2) = x at *
    obtain ⟨s1, off⟩ := x
    simp only at ha hv hmode ⊢
    split
    · exact Or.inr ⟨by simp, Or.inl hv⟩
    unfold indexDelete
    have hdd := deleteDisk_id s1 c.io e
    generalize deleteDisk s1 c.io e = z at hdd ⊢
    obtain ⟨s2, okd⟩ := z
    obtain ⟨d1, d2, d3⟩ := hdd
    simp only at d1 d2 d3 ⊢
    rw [d3, hmode]
    cases okd with
    | true =>
      simp only [if_true]
      refine Or.inl ⟨trivial, ?_⟩
      rw [d2, hx2]
      by_cases hq : k = q
      · subst hq
        rw [if_pos rfl]
        cases w with
        | none =>
          have h' : keyEnts br c.u k = [] := h
          simp [indexGet, hm, brGet_keyEnts, h'] at hg
        | some v =>
          obtain ⟨e', h1', h2'⟩ := h
          exact keyEnts_remove_eq h1'
      · rw [if_neg hq]
        exact hv.congr (keyEnts_remove_ne br c.u (fun h => hq h.symm))
    | false =>
      simp only [Bool.false_eq_true, if_false]
      refine Or.inr ⟨by simp, ?_⟩
      by_cases hq : k = q
      · exact Or.inr ⟨hq, trivial⟩
      · left
        rw [d2]
        generalize hE : ({ e with flags := setDeleted e.flags } : Entry) = E
        have hei : E.id = k := by rw [← hE]; exact hx2
        have hen : E.ns = c.u := by rw [← hE]; exact hx1
        rw [hx2]
        exact hv.congr (keyEnts_update_ne br hen hei (fun h => hq h.symm))

/-- Every command. -/
theorem dsCommand_val {c : Ctx} {br : Branches} {s : Store} (hm : s.mode = .user) (hs : InStep s)
    (hcap : s.indexid + 1 < 2 ^ 32) (hlim : c.limit ≤ 2 ^ 31) (d : DsCmd) {argv : List Bytes}
    (ha : ArgsOK argv) {q : Bytes} {w : Option Bytes} (h : HasVal br c.u s.dfiles q w)
    (hd : damages q w (.cmd c d argv, (dsCommand c br s d argv).2.2) = false) :
    HasVal (dsCommand c br s d argv).1 c.u (dsCommand c br s d argv).2.1.dfiles q
      ((writeOf q (.cmd c d argv, (dsCommand c br s d argv).2.2)).getD w) := by
  cases d with
  | set =>
    have key : ∀ n k p t, argv = n :: k :: p :: t →
        ∀ x, x = cmdSet.body c br s argv k p →
        damages q w (.cmd c .set argv, x.2.2) = false →
        HasVal x.1 c.u x.2.1.dfiles q ((writeOf q (.cmd c .set argv, x.2.2)).getD w) := by
      intro n k p t hargv x hx hd
      have hp := ha.size p (by rw [hargv]; simp)
      have := cmdSet_body_val hm hs hcap hlim argv (k := k) (p := p) (by omega) h
      rw [← hx] at this
      rcases this with ⟨h1, h2⟩ | ⟨h1, h2 | ⟨h2, h3, h4⟩⟩
      · rw [h1, hargv]
        simp only [writeOf]
        by_cases hk : k = q
        · rw [if_pos hk] at h2 ⊢; exact h2
        · rw [if_neg hk] at h2 ⊢; exact h2
      · have : writeOf q (.cmd c .set argv, x.2.2) = none := by
          rw [hargv]
          cases hr : x.2.2 with
          | bulk b => exact absurd hr (h1 b)
          | _ => rfl
        rw [this]
        exact h2
      · rw [hargv, h4] at hd
        simp [damages, h2, h3] at hd
    obtain ⟨n, rest, rfl, hne⟩ := ha.name
    unfold dsCommand cmdSet at hd ⊢
    match rest with
    | [] => exact h
    | [_] => exact h
    | [k, p] => exact key n k p [] rfl _ rfl hd
    | [k, p, t] =>
      simp only at hd ⊢
      by_cases had : c.admin = true
      · simp only [had, if_true] at hd ⊢
        exact key n k p [t] rfl _ rfl hd
      · simp only [had] at hd ⊢
        exact h
    | _ :: _ :: _ :: _ :: _ => exact h
  | del =>
    have key : ∀ n k t, argv = n :: k :: t →
        ∀ x, x = cmdDel.body c br s argv k →
        damages q w (.cmd c .del argv, x.2.2) = false →
        HasVal x.1 c.u x.2.1.dfiles q ((writeOf q (.cmd c .del argv, x.2.2)).getD w) := by
      intro n k t hargv x hx hd
      have := cmdDel_body_val hm hs argv (k := k) h
      rw [← hx] at this
      rcases this with ⟨h1, h2⟩ | ⟨h1, h2 | ⟨h2, h4⟩⟩
      · rw [h1, hargv]
        simp only [writeOf, Reply.ok]
        by_cases hk : k = q
        · rw [if_pos hk] at h2 ⊢; exact h2
        · rw [if_neg hk] at h2 ⊢; exact h2
      · have : writeOf q (.cmd c .del argv, x.2.2) = none := by
          rw [hargv]
          cases hr : x.2.2 with
          | simple b => exact absurd hr (h1 b)
          | _ => rfl
        rw [this]
        exact h2
      · rw [hargv, h4] at hd
        simp [damages, h2] at hd
    obtain ⟨n, rest, rfl, hne⟩ := ha.name
    unfold dsCommand cmdDel at hd ⊢
    match rest with
    | [] => exact h
    | [k] =>
      by_cases hk : k = []
      · subst hk
        have : argsValidate [n, []] 2 = some errArg := by simp [argsValidate]
        simp only [this] at hd ⊢
        exact h
      · have : argsValidate [n, k] 2 = none := by simp [argsValidate, hk, hne]
        simp only [this] at hd ⊢
        exact key n k [] rfl _ rfl hd
    | [k, t] =>
      simp only at hd ⊢
      by_cases had : c.admin = true
      · simp only [had, if_true] at hd ⊢
        exact key n k [t] rfl _ rfl hd
      · simp only [had] at hd ⊢
        exact h
    | k :: t :: x :: xs =>
      have : argsValidate (n :: k :: t :: x :: xs) 2 = some errArgs := by simp [argsValidate]
      simp only [this] at hd ⊢
      exact h
  | nsjump =>
    simp only [dsCommand, cmdNsjump, writeOf]
    split
    · exact h.ext (jump_ext hs hcap).ext
    · exact h
  | index =>
    simp only [dsCommand, writeOf]
    rcases cmdIndex_cases c s argv with h' | h' <;> rw [h'] <;> exact h
  | _ => exact h

/-- The value of a key in an execution. -/
theorem faultRun_val {cfg : Option Mode} {u : Nat} {br br' : Branches} {s s' : Store}
    {tr : List (NsEvent × Reply)} (hr : NsRun cfg u br s tr br' s') (hev : ∀ x ∈ tr, FaultOK x.1)
    (hm : s.mode = .user) (hs : InStep s) (hcap : s.indexid + 1 + tr.length < 2 ^ 32) {q : Bytes}
    {w : Option Bytes} (h : HasVal br u s.dfiles q w) (hsp : Spared q w tr) :
    s'.mode = .user ∧ InStep s' ∧ s'.indexid ≤ s.indexid + tr.length ∧
      HasVal br' u s'.dfiles q (tr.foldl (fun a x => (writeOf q x).getD a) w) := by
  induction hr generalizing w with
  | nil br s => exact ⟨hm, hs, Nat.le_refl _, h⟩
  | @cmd c d argv br br1 br2 s s1 s2 r tr hu h1 h2 ih =>
    subst hu
    obtain ⟨hl, ha⟩ := hev _ (List.mem_cons_self ..)
    simp only [List.length_cons] at hcap
    obtain ⟨hd, hsp⟩ := hsp
    have e1 := dsCommand_ext c br hs (by omega) d argv
    have e2 := dsCommand_val hm hs (by omega) hl d ha h (by rw [h1]; exact hd)
    have e3 := (dsCommand_calm c br s d argv).1.1
    rw [h1] at e1 e2 e3
    have := e1.next
    simp only at this
    obtain ⟨j1, j2, j3, j4⟩ := ih (fun x hx => hev x (List.mem_cons_of_mem _ hx)) (e3.trans hm) e1.step
      (by omega) e2 hsp
    exact ⟨j1, j2, by simp only [List.length_cons]; omega, j4⟩
  | @foreign br br1 br2 s s2 tr h1 h2 ih =>
    simp only [List.length_cons] at hcap
    have hn : nsBranch br1 u (keyHash q) = nsBranch br u (keyHash q) := h1 _
    obtain ⟨j1, j2, j3, j4⟩ := ih (fun x hx => hev x (List.mem_cons_of_mem _ hx)) hm hs (by omega)
      (h.congr (by unfold keyEnts; rw [hn])) hsp.2
    exact ⟨j1, j2, by simp only [List.length_cons]; omega, j4⟩
  | reload h1 h2 ih => exact (hev _ (List.mem_cons_self ..)).elim

end Zdb
