/-
Where the value of a key is, in executions during which data files are lost, cut or corrupted.
-/
import Verif.Lemmas.LossGhost
import Verif.Spec.Loss
namespace Zdb

/-- A key has at most one entry, which is live. -/
def OneEnt (br : Branches) (u : Nat) (q : Bytes) : Prop :=
  keyEnts br u q = [] ∨ ∃ e, keyEnts br u q = [e] ∧ isDeleted e.flags = false

/-- The entry of `q` leads to a record of payload `p` that is the end of the current data file. -/
def AtEnd (br : Branches) (u : Nat) (s : Store) (q p : Bytes) : Prop :=
  ∃ e, keyEnts br u q = [e] ∧ Stored s.dfiles e p ∧ e.dataid = s.dataid ∧
    e.offset + (18 + q.length + p.length) = fileLen s.dfiles s.dataid

theorem setWrite_ents {c : Ctx} {br : Branches} {s s0 : Store} (hm0 : s0.mode = .user)
    (hs : InStep s) (hfl : fileLen s.dfiles s.dataid ≤ 2 ^ 31) {id p : Bytes} (hid : id.length ≤ 255)
    (hp : p.length < 2 ^ 32) {ts : Nat} (hts : ts < 2 ^ 32) (happ : c.io.iapp = none) {q : Bytes}
    (hq : OneEnt br c.u q) {ex : Option Entry} (hex : ex = indexGet br s0 c.u id) :
    ((setWrite c br s id p ts ex).2.2 = .bulk id ∧
      (id = q → AtEnd (setWrite c br s id p ts ex).1 c.u (setWrite c br s id p ts ex).2.1 q p) ∧
      (id ≠ q → keyEnts (setWrite c br s id p ts ex).1 c.u q = keyEnts br c.u q)) ∨
    ((∀ b, (setWrite c br s id p ts ex).2.2 ≠ .bulk b) ∧
      keyEnts (setWrite c br s id p ts ex).1 c.u q = keyEnts br c.u q) := by
  unfold setWrite
  have hlt : s.dataid < s.dfiles.length := by have := hs.d; omega
  cases hio : (c.io.dhdr.ok && c.io.dpay.ok) with
  | false =>
    have h2 := (dataInsert_fail (s := s) hio id p 0 (crc32 p) ts).1
    generalize dataInsert s c.io id p 0 (crc32 p) ts = x at *
    obtain ⟨s1, off⟩ := x
    simp only at h2 ⊢
    rw [if_pos h2]
    exact Or.inr ⟨by simp, rfl⟩
  | true =>
    have h2 := dataInsert_ok (s := s) hio ⟨_, List.getElem?_eq_getElem hlt⟩ id p 0 (crc32 p) ts rfl
    generalize dataInsert s c.io id p 0 (crc32 p) ts = x at *
    obtain ⟨s1, off⟩ := x
    simp only at h2 ⊢
    by_cases hoff : off = 0
    · rw [if_pos hoff]; exact Or.inr ⟨by simp, rfl⟩
    rw [if_neg hoff]
    have hoff' : off < 2 ^ 32 := by rw [h2.pos]; omega
    obtain ⟨bb, prev, hbl, hs1⟩ := h2.eq
    have hiid : s1.indexid = s.dataid := by rw [hs1]; exact hs.same.symm
    have hdid : s1.dataid = s.dataid := by rw [hs1]
    have hend : off + (18 + id.length + p.length) = fileLen s1.dfiles s1.dataid := by
      rw [hdid, hs1]
      simp only [fileLen, appendFile, List.getElem?_modify, List.getElem?_eq_getElem hlt]
      have := h2.pos
      simp only [fileLen, List.getElem?_eq_getElem hlt] at this
      simp [hbl, this]
    cases ex with
    | none =>
      simp only
      have hsm := insertUser_same br s1 c.u c.io ⟨id, off, p.length, crc32 p, 0, ts⟩
      unfold insertUser insertMemUser at hsm ⊢
      have hr := appendEntry_res s1 c.io ((⟨id, off, p.length, crc32 p, 0, ts⟩ : SetReq).entry c.u)
      generalize appendEntry s1 c.io ((⟨id, off, p.length, crc32 p, 0, ts⟩ : SetReq).entry c.u) = y at hr hsm ⊢
      obtain ⟨s2, e, ok⟩ := y
      obtain ⟨r1, r2, r3, r4⟩ := hr
      have hok : ok = true := by simp only at r1; rw [r1, happ]; rfl
      subst hok
      rw [happ] at r4
      simp only [WriteFault.ok, Option.isNone_none, if_true] at r2 r3 r4 hsm ⊢
      refine Or.inl ⟨trivial, ?_⟩
      have hdid2 : s2.dataid = s1.dataid := hsm.did
      generalize hE : ({ e with ns := c.u, dataid := s2.indexid } : Entry) = E
      have hk := keyEnts_append br E q
      have hei : E.id = id := by rw [← hE, r4]; rfl
      have hen : E.ns = c.u := by rw [← hE]
      rw [hei, hen] at hk
      refine ⟨fun hiq => ?_, fun hiq => ?_⟩
      · subst hiq
        rw [if_pos rfl] at hk
        have hnil : keyEnts br c.u id = [] := by
          rcases hq with h | ⟨e', h1', h2'⟩
          · exact h
          · exfalso
            simp [indexGet, hm0, brGet_keyEnts, h1', h2'] at hex
        rw [hnil, List.nil_append] at hk
        refine ⟨E, hk, ?_, ?_, ?_⟩
        · rw [r2]
          refine h2.stored hoff' (by omega) hp hts ?_ ?_ ?_ ?_ ?_ ?_ ?_
          all_goals simp only [← hE, r4, SetReq.entry]
          rw [r3, hiid]
        · rw [← hE]; simp only; rw [r3, hiid, hdid2, hdid]
        · have : E.offset = off := by rw [← hE, r4]; simp only [SetReq.entry]; exact Nat.mod_eq_of_lt hoff'
          rw [this, hend, r2]
          exact congrArg _ hdid2.symm
      · rw [if_neg hiq, List.append_nil] at hk
        exact hk
    | some ex =>
      simp only
      obtain ⟨hx1, hx2, hx3⟩ := indexGet_mem hm0 hex.symm
      have hsm := updateUser_same br s1 c.u c.io ⟨id, off, p.length, crc32 p, 0, ts⟩ ex
      unfold updateUser at hsm ⊢
      simp only at hsm ⊢
      have hdd := deleteDisk_id s1 c.io ex
      generalize deleteDisk s1 c.io ex = z at hdd hsm ⊢
      obtain ⟨s2, okd⟩ := z
      obtain ⟨d1, d2, d3⟩ := hdd
      simp only at d1 d2 hsm ⊢
      generalize hu : updatedEntry s2 ex ((⟨id, off, p.length, crc32 p, 0, ts⟩ : SetReq).entry c.u) = ue at hsm ⊢
      generalize hst : updateStats s2 ex ((⟨id, off, p.length, crc32 p, 0, ts⟩ : SetReq).entry c.u) = s3 at hsm ⊢
      have hs3 : s3.dfiles = s1.dfiles := by rw [← hst, ← d2]; rfl
      have hr := appendEntry_res s3 c.io ue
      generalize appendEntry s3 c.io ue = y at hr hsm ⊢
      obtain ⟨s4, e, ok⟩ := y
      obtain ⟨r1, r2, r3, r4⟩ := hr
      have hok : ok = true := by simp only at r1; rw [r1, happ]; rfl
      subst hok
      rw [happ] at r4
      simp only [WriteFault.ok, Option.isNone_none, if_true] at r2 r3 r4 hsm ⊢
      have hdid2 : s4.dataid = s1.dataid := hsm.did
      have e1 : e.ns = c.u := by rw [r4, ← hu]; exact hx1
      have e2 : e.id = id := by rw [r4, ← hu]; exact hx2
      refine Or.inl ⟨trivial, ?_⟩
      refine ⟨fun hiq => ?_, fun hiq => ?_⟩
      · subst hiq
        have hone : keyEnts br c.u id = [ex] := by
          rcases hq with h | ⟨e', h1', h2'⟩
          · simp [indexGet, hm0, brGet_keyEnts, h] at hex
          · simp only [indexGet, hm0, brGet_keyEnts, h1', List.head?_cons, h2'] at hex
            simp only [Bool.false_eq_true, if_false, Option.some.injEq] at hex
            rw [h1', hex]
        refine ⟨e, by rw [hx2]; exact keyEnts_update_eq e1 e2 hone, ?_, ?_, ?_⟩
        · rw [r2, hs3]
          refine h2.stored hoff' (by omega) hp hts e2 ?_ ?_ ?_ ?_ ?_ ?_
          all_goals simp only [r4, ← hu, SetReq.entry, updatedEntry]
          rw [d1, hiid]
        · rw [r4, ← hu]; simp only [updatedEntry]; rw [d1, hiid, hdid2, hdid]
        · have : e.offset = off := by
            rw [r4, ← hu]; simp only [updatedEntry, SetReq.entry]; exact Nat.mod_eq_of_lt hoff'
          rw [this, hend, r2, hs3]
          exact congrArg _ hdid2.symm
      · rw [hx2]
        exact keyEnts_update_ne br e1 e2 (fun h => hiq h.symm)

/-- What a command does to the entry of key `q`. -/
def EntStep (q : Bytes) (u : Nat) (br br' : Branches) (s' : Store) : Option (Option Bytes) → Prop
  | some (some p) => AtEnd br' u s' q p
  | some none => keyEnts br' u q = []
  | none => keyEnts br' u q = keyEnts br u q

theorem dsCommand_ents {c : Ctx} {br : Branches} {s : Store} (hm : s.mode = .user) (hs : InStep s)
    (hcap : s.indexid + 1 < 2 ^ 32) (hc : CtxOK c) (d : DsCmd) {argv : List Bytes} (ha : ArgsOK argv) {q : Bytes}
    (hq : OneEnt br c.u q) (hq' : OneEnt (dsCommand c br s d argv).1 c.u q) :
    EntStep q c.u br (dsCommand c br s d argv).1 (dsCommand c br s d argv).2.1
      (writeOf q (.cmd c d argv, (dsCommand c br s d argv).2.2)) := by
  cases d with
  | set =>
    have key : ∀ n k p t, argv = n :: k :: p :: t → ∀ x, x = cmdSet.body c br s argv k p →
        EntStep q c.u br x.1 x.2.1 (writeOf q (.cmd c .set argv, x.2.2)) := by
      intro n k p t hargv x hx
      have hp := ha.size p (by rw [hargv]; simp)
      have : (x.2.2 = .bulk k ∧ (k = q → AtEnd x.1 c.u x.2.1 q p) ∧ (k ≠ q → keyEnts x.1 c.u q = keyEnts br c.u q)) ∨
          ((∀ b, x.2.2 ≠ .bulk b) ∧ keyEnts x.1 c.u q = keyEnts br c.u q) := by
        rw [hx]
        unfold cmdSet.body
        split
        · exact Or.inr ⟨by simp, rfl⟩
        split
        · exact Or.inr ⟨by simp [errReadOnly], rfl⟩
        split
        · exact Or.inr ⟨by simp [errFrozen], rfl⟩
        split
        · exact Or.inr ⟨by simp [errLocked], rfl⟩
        rename_i hk _ _ _
        dsimp only
        generalize hex : (if k.length ≠ 0 then indexGet br s c.u k else none) = ex
        split
        · exact Or.inr ⟨by simp, rfl⟩
        split
        · exact Or.inr ⟨by simp, rfl⟩
        have h1 := jumpIfFull_ext hs hcap c.limit p.length
        have h2 := jumpIfFull_len hs hcap hc.limit p.length
        generalize jumpIfFull c.limit s p.length = t at *
        simp only [hm]
        rw [setHandlerUser_eq]
        split
        · exact Or.inr ⟨by simp, rfl⟩
        rename_i hk0
        split
        · exact Or.inr ⟨by simp, rfl⟩
        rw [if_pos hk0] at hex
        exact setWrite_ents (s0 := s) hm h1.step h2 (by omega) (by omega) (timestampFromSet_lt _ _ _) hc.iapp hq hex.symm
      rcases this with ⟨h1, h2, h3⟩ | ⟨h1, h2⟩
      · rw [h1, hargv]
        simp only [writeOf]
        by_cases hk : k = q
        · rw [if_pos hk]; exact h2 hk
        · rw [if_neg hk]; exact h3 hk
      · have : writeOf q (.cmd c .set argv, x.2.2) = none := by
          rw [hargv]
          cases hr : x.2.2 with
          | bulk b => exact absurd hr (h1 b)
          | _ => rfl
        rw [this]
        exact h2
    obtain ⟨n, rest, rfl, hne⟩ := ha.name
    unfold dsCommand cmdSet
    match rest with
    | [] => exact rfl
    | [_] => exact rfl
    | [k, p] => exact key n k p [] rfl _ rfl
    | [k, p, t] =>
      simp only
      by_cases had : c.admin = true
      · simp only [had, if_true]
        exact key n k p [t] rfl _ rfl
      · simp only [had]
        exact rfl
    | _ :: _ :: _ :: _ :: _ => exact rfl
  | del =>
    have key : ∀ n k t, argv = n :: k :: t → ∀ x, x = cmdDel.body c br s argv k → OneEnt x.1 c.u q →
        EntStep q c.u br x.1 x.2.1 (writeOf q (.cmd c .del argv, x.2.2)) := by
      intro n k t hargv x hx hq'
      have : (x.2.2 = .ok ∧ (k = q → keyEnts x.1 c.u q = []) ∧ (k ≠ q → keyEnts x.1 c.u q = keyEnts br c.u q)) ∨
          ((∀ b, x.2.2 ≠ .simple b) ∧ keyEnts x.1 c.u q = keyEnts br c.u q) := by
        rw [hx] at hq' ⊢
        unfold cmdDel.body at hq' ⊢
        split
        · exact Or.inr ⟨by simp, rfl⟩
        rename_i hc1; rw [if_neg hc1] at hq'
        split
        · exact Or.inr ⟨by simp [errReadOnly], rfl⟩
        rename_i hc2; rw [if_neg hc2] at hq'
        split
        · exact Or.inr ⟨by simp [errFrozen], rfl⟩
        rename_i hc3; rw [if_neg hc3] at hq'
        split
        · exact Or.inr ⟨by simp [errLocked], rfl⟩
        rename_i hc4; rw [if_neg hc4] at hq'
        cases hg : indexGet br s c.u k with
        | none => exact Or.inr ⟨by simp, rfl⟩
        | some e =>
          simp only [hg] at hq' ⊢
          split
          · exact Or.inr ⟨by simp, rfl⟩
          rename_i hc5; rw [if_neg hc5] at hq'
          obtain ⟨hx1, hx2, hx3⟩ := indexGet_mem hm hg
          have hmode : (dataInsert s c.io e.id [] 1 0 (timestampFromSet c.now argv 2)).1.mode = .user := by
            rw [← hm]; unfold dataInsert; simp only; split
            · rfl
            · split <;> rfl
          generalize dataInsert s c.io e.id [] 1 0 (timestampFromSet c.now argv 2) = x at hq' hmode ⊢
          obtain ⟨s1, off⟩ := x
          simp only at hmode hq' ⊢
          split
          · exact Or.inr ⟨by simp, rfl⟩
          rename_i hc6; rw [if_neg hc6] at hq'
          unfold indexDelete at hq' ⊢
          have hdd := deleteDisk_id s1 c.io e
          generalize deleteDisk s1 c.io e = z at hdd hq' ⊢
          obtain ⟨s2, okd⟩ := z
          obtain ⟨d1, d2, d3⟩ := hdd
          simp only at d1 d2 d3 hq' ⊢
          rw [d3, hmode] at hq' ⊢
          have hone : k = q → keyEnts br c.u q = [e] := by
            intro hkq
            rcases hq with h | ⟨e', h1', h2'⟩
            · rw [← hkq] at h; simp [indexGet, hm, brGet_keyEnts, h] at hg
            · rw [← hkq] at h1'
              simp only [indexGet, hm, brGet_keyEnts, h1', List.head?_cons, h2'] at hg
              simp only [Bool.false_eq_true, if_false, Option.some.injEq] at hg
              rw [← hkq, h1', hg]
          cases okd with
          | true =>
            simp only [if_true] at hq' ⊢
            refine Or.inl ⟨trivial, fun hkq => ?_, fun hkq => ?_⟩
            · rw [hx2, hkq]; exact keyEnts_remove_eq (hone hkq)
            · rw [hx2]; exact keyEnts_remove_ne br c.u (fun h => hkq h.symm)
          | false =>
            simp only [Bool.false_eq_true, if_false] at hq' ⊢
            refine Or.inr ⟨by simp, ?_⟩
            generalize hE : ({ e with flags := setDeleted e.flags } : Entry) = E at hq' ⊢
            have hei : E.id = k := by rw [← hE]; exact hx2
            have hen : E.ns = c.u := by rw [← hE]; exact hx1
            rw [hx2] at hq' ⊢
            by_cases hkq : k = q
            · exfalso
              have h1 := hone hkq
              rw [← hkq] at h1
              have h2 := keyEnts_update_eq hen hei h1
              rcases hq' with h | ⟨e', h1', h2'⟩
              · rw [← hkq, h2] at h; cases h
              · rw [← hkq, h2] at h1'
                simp only [List.cons.injEq, and_true] at h1'
                subst h1'
                rw [← hE] at h2'
                simp [isDeleted, setDeleted] at h2'
            · exact keyEnts_update_ne br hen hei (fun h => hkq h.symm)
      rcases this with ⟨h1, h2, h3⟩ | ⟨h1, h2⟩
      · rw [h1, hargv]
        simp only [writeOf, Reply.ok]
        by_cases hk : k = q
        · rw [if_pos hk]; exact h2 hk
        · rw [if_neg hk]; exact h3 hk
      · have : writeOf q (.cmd c .del argv, x.2.2) = none := by
          rw [hargv]
          cases hr : x.2.2 with
          | simple b => exact absurd hr (h1 b)
          | _ => rfl
        rw [this]
        exact h2
    obtain ⟨n, rest, rfl, hne⟩ := ha.name
    unfold dsCommand cmdDel at hq' ⊢
    match rest with
    | [] => exact rfl
    | [k] =>
      by_cases hk : k = []
      · subst hk
        have : argsValidate [n, []] 2 = some errArg := by simp [argsValidate]
        simp only [this]
        exact rfl
      · have : argsValidate [n, k] 2 = none := by simp [argsValidate, hk, hne]
        simp only [this] at hq' ⊢
        exact key n k [] rfl _ rfl hq'
    | [k, t] =>
      simp only at hq' ⊢
      by_cases had : c.admin = true
      · simp only [had, if_true] at hq' ⊢
        exact key n k [t] rfl _ rfl hq'
      · simp only [had]
        exact rfl
    | k :: t :: x :: xs =>
      have : argsValidate (n :: k :: t :: x :: xs) 2 = some errArgs := by simp [argsValidate]
      simp only [this]
      exact rfl
  | nsjump =>
    simp only [dsCommand, cmdNsjump, writeOf]
    split <;> exact rfl
  | index =>
    simp only [dsCommand, writeOf]
    rcases cmdIndex_cases c s argv with h' | h' <;> rw [h'] <;> exact rfl
  | _ => exact rfl

/-! ### the run -/

theorem UInv.keyEnts {br : Branches} {u : Nat} {s : Store} {G : Log} (h : UInv br u s G) (k : Bytes) :
    keyEnts br u k = ((liveGet G k).map (Loc.entry u)).toList := by
  have h1 : (Zdb.keyEnts br u k).length ≤ 1 := by
    have := ((h.brs (keyHash k)).filter (fun e => e.id == k)).length_eq
    unfold Zdb.keyEnts
    rw [this]
    exact ents_once u (keyHash k) (live G) k h.nodup
  have h2 := h.brGet k
  rw [brGet_keyEnts] at h2
  rw [← h2]
  match Zdb.keyEnts br u k, h1 with
  | [], _ => rfl
  | [a], _ => rfl
  | _ :: _ :: _, h1 => simp at h1

theorem UInv.oneEnt {br : Branches} {u : Nat} {s : Store} {G : Log} (h : UInv br u s G) (k : Bytes) :
    OneEnt br u k := by
  unfold OneEnt
  rw [h.keyEnts]
  cases hl : liveGet G k with
  | none => exact Or.inl rfl
  | some l =>
    refine Or.inr ⟨l.entry u, rfl, ?_⟩
    have := (List.mem_filter.1 (liveGet_some hl).1).2
    simpa [Loc.live, Loc.entry] using this

/-- What the table and the files say about key `k`. -/
def KeyAt (br : Branches) (u : Nat) (s : Store) (F : List Bytes) (k : Bytes) : Option Spot → Prop
  | none => keyEnts br u k = []
  | some w => ∃ E, keyEnts br u k = [E] ∧ Stored (s.gh F).dfiles E w.payload ∧ E.dataid = w.file ∧
      E.offset + (18 + k.length + w.payload.length) = w.stop ∧ (w.whole = true → Stored s.dfiles E w.payload)

structure LossInv (br : Branches) (u : Nat) (s : Store) (F : List Bytes) (k : Bytes) (a : Option Spot) : Prop where
  under : Under F s
  step : InStep s
  inv : ∃ G, UInv br u (s.gh F) G
  key : KeyAt br u s F k a

/-- The files are those never damaged, cut. -/
def CutOf (s : Store) (F : List Bytes) : Prop :=
  ∀ (i : Nat) (f : Bytes), s.dfiles[i]? = some f → ∃ x : Bytes, (s.gh F).dfiles[i]? = some (f ++ x)

theorem Stored.files {fs fs' : List Bytes} {e : Entry} {p : Bytes} (h : Stored fs e p)
    (hm : ∀ off b, DataAt fs e.dataid off b → DataAt fs' e.dataid off b) : Stored fs' e p :=
  ⟨h.live, h.ok.data_mono hm⟩

theorem DataAt.same {fs fs' : List Bytes} {i off : Nat} {b : Bytes} (h : DataAt fs i off b) (he : fs'[i]? = fs[i]?) :
    DataAt fs' i off b := by
  obtain ⟨pre, post, h1, h2⟩ := h
  exact ⟨pre, post, he.trans h1, h2⟩

theorem gh_low {F fs : List Bytes} {i : Nat} (h : i < F.length) : (F ++ fs.drop F.length)[i]? = F[i]? := by
  rw [List.getElem?_append_left h]

theorem DataExt.gh {s t : Store} {F : List Bytes} (h : DataExt s t) : DataExt (s.gh F) (t.gh F) := by
  refine ⟨h.1, fun i f hf => ?_⟩
  by_cases hi : i < F.length
  · refine ⟨[], ?_, fun _ => rfl⟩
    simp only [Store.gh] at hf ⊢
    rw [gh_low hi] at hf ⊢
    simpa using hf
  · simp only [Store.gh] at hf ⊢
    rw [gh_get (by omega)] at hf ⊢
    exact h.2 i f hf

theorem LossInv.command {c : Ctx} {br : Branches} {s : Store} {F : List Bytes} {k : Bytes} {a : Option Spot}
    (h : LossInv br c.u s F k a) (hc : CtxOK c) (d : DsCmd) {argv : List Bytes} (ha : ArgsOK argv)
    (hcap : s.indexid + 1 < 2 ^ 32) {br1 : Branches} {s1 : Store} {r : Reply} (h1 : dsCommand c br s d argv = (br1, s1, r)) :
    LossInv br1 c.u s1 F k (spotStep k a ⟨.ev (.cmd c d argv), r, s1.dataid, fileLen s1.dfiles s1.dataid⟩) ∧
      (CutOf s F → CutOf s1 F) ∧ s1.indexid ≤ s.indexid + 1 := by
  obtain ⟨G, hG⟩ := h.inv
  have hm : s.mode = .user := hG.mode
  have he := dsCommand_ext c br h.step hcap d argv
  obtain ⟨G', hG'⟩ := command_gh h.under h.step hG hc d ha hcap
  have hs := dsCommand_ents hm h.step hcap hc d ha (hG.oneEnt k) (hG'.oneEnt k)
  rw [h1] at he hG' hs
  simp only at he hG' hs
  have hun : Under F s1 := by
    have h3 := h.under.1
    have h4 := he.ext.1
    have h5 := he.step.d
    exact ⟨by omega, by omega⟩
  refine ⟨⟨hun, he.step, ⟨G', hG'⟩, ?_⟩, fun hcut i f hf => ?_, he.next⟩
  · simp only [spotStep]
    cases hw : writeOf k (.cmd c d argv, r) with
    | none =>
      rw [hw] at hs
      have hs' : keyEnts br1 c.u k = keyEnts br c.u k := hs
      simp only
      cases a with
      | none => exact hs'.trans h.key
      | some w =>
        obtain ⟨E, k1, k2, k3, k4, k5⟩ := h.key
        exact ⟨E, hs'.trans k1, k2.files (fun _ _ => he.ext.gh.dataAt), k3, k4,
          fun hwh => (k5 hwh).files (fun _ _ => he.ext.dataAt)⟩
    | some o =>
      rw [hw] at hs
      cases o with
      | none => exact hs
      | some p =>
        obtain ⟨E, k1, k2, k3, k4⟩ := hs
        refine ⟨E, k1, k2.files (fun off b hd => hd.same ?_), k3, k4, fun _ => k2⟩
        rw [k3]
        exact gh_get hun.1
  · by_cases hi : i < F.length
    · have hlt : i < s.dfiles.length := by have := h.under; unfold Under at this; omega
      obtain ⟨x, hx, hx0⟩ := he.ext.2 i _ (List.getElem?_eq_getElem hlt)
      rw [hx0 (by have := h.under.1; omega), List.append_nil] at hx
      rw [hx] at hf
      injection hf with hf
      obtain ⟨y, hy⟩ := hcut i _ (List.getElem?_eq_getElem hlt)
      refine ⟨y, ?_⟩
      simp only [Store.gh] at hy ⊢
      rw [gh_low hi] at hy ⊢
      rw [← hf]; exact hy
    · refine ⟨[], ?_⟩
      simp only [Store.gh]
      rw [gh_get (by omega)]
      simpa using hf

theorem LossInv.foreign {br br' : Branches} {u : Nat} {s : Store} {F : List Bytes} {k : Bytes} {a : Option Spot}
    (h : LossInv br u s F k a) (hb : ∀ i, nsBranch br' u i = nsBranch br u i) : LossInv br' u s F k a := by
  have he : keyEnts br' u k = keyEnts br u k := by unfold keyEnts; rw [hb]
  refine ⟨h.under, h.step, h.inv.elim fun G hG => ⟨G, hG.foreign hb⟩, ?_⟩
  cases a with
  | none => exact he.trans h.key
  | some w =>
    obtain ⟨E, k1, k2⟩ := h.key
    exact ⟨E, he.trans k1, k2⟩

theorem gh_self (s : Store) (n : Nat) (h : n ≤ s.dfiles.length) : s.gh (s.dfiles.take n) = s := by
  have : (s.dfiles.take n).length = n := by simp; omega
  simp only [Store.gh, this, List.take_append_drop]

theorem LossInv.reload {br br1 : Branches} {u : Nat} {s s1 : Store} {F : List Bytes} {k : Bytes} {a : Option Spot}
    (h : LossInv br u s F k a) {cfg : Option Mode} (hcfg : cfg = none ∨ cfg = some .user) (hcap : s.indexid + 1 < 2 ^ 32)
    (h1 : reloadNs cfg br u s = .ok br1 s1) :
    LossInv br1 u s1 F k a ∧ s1.dfiles = s.dfiles ∧ s1.indexid = s.indexid := by
  obtain ⟨G, hG⟩ := h.inv
  have hlen : s.indexid + 1 = G.length := hG.iid
  obtain ⟨b, t, k1, k2, k3, k4, -, -⟩ := hG.reload cfg hcfg (by omega)
  have hid : t.dataid = s.dataid := by
    have e1 := k2.iid
    have e2 := k2.did
    have e3 := h.step.same
    omega
  have hun := h.under
  have hl : F.length ≤ s.dfiles.length := by unfold Under at hun; omega
  obtain ⟨t', j1, j2⟩ := reloadNs_gh k1 (by rw [hid]; exact hun.1) hl
  rw [h1] at j1
  injection j1 with j0 j1
  subst j0; subst j1
  have hdid : s1.dataid = s.dataid := by rw [j2] at hid; exact hid
  have hiid : s1.indexid = s.indexid := by
    have e1 := k2.did
    rw [j2] at e1
    have e2 : s1.dataid = s1.indexid := e1
    have e3 := h.step.same
    omega
  -- the part above `F`
  have hd1 : s1.dfiles.drop F.length = s.dfiles.drop F.length := by
    rw [j2] at k4
    exact List.append_cancel_left k4
  -- the part below
  have hF' : (s.dfiles.take F.length).length = F.length := by simp; omega
  have hd2 : s1.dfiles.take F.length = s.dfiles.take F.length := by
    have h1' := h1
    rw [← gh_self s F.length hl] at h1'
    obtain ⟨t', j1, j3⟩ := reloadNs_gh h1' (by rw [hF', hdid]; exact hun.1) (by rw [hF']; exact hl)
    rw [h1] at j1
    injection j1 with j0 j1
    subst j1
    have : s1.dfiles = s.dfiles.take F.length ++ s1.dfiles.drop (s.dfiles.take F.length).length := congrArg Store.dfiles j3
    rw [this, List.take_append_of_le_length (by omega), List.take_of_length_le (by omega)]
  have hdf : s1.dfiles = s.dfiles := by
    rw [← List.take_append_drop F.length s1.dfiles, hd1, hd2, List.take_append_drop]
  have hil : s1.ifiles = s.ifiles := by rw [j2] at k3; exact k3
  have hke : keyEnts br1 u k = keyEnts br u k := by rw [k2.keyEnts, hG.keyEnts]
  have hgh : (s1.gh F).dfiles = (s.gh F).dfiles := by simp only [Store.gh, hdf]
  refine ⟨⟨⟨by rw [hdid]; exact hun.1, by rw [hdid, hdf]; exact hun.2⟩,
    ⟨by rw [hdf, hdid]; exact h.step.d, by rw [hil, hiid]; exact h.step.i, by rw [hdid, hiid]; exact h.step.same⟩,
    ⟨G, by rw [← j2]; exact k2⟩, ?_⟩, hdf, hiid⟩
  cases a with
  | none => exact hke.trans h.key
  | some w =>
    obtain ⟨E, m1, m2, m3, m4, m5⟩ := h.key
    exact ⟨E, hke.trans m1, by rw [hgh]; exact m2, m3, m4, by rw [hdf]; exact m5⟩

theorem dataAt_bytes {fs : List Bytes} {i off : Nat} {r : Bytes} (hr : r ≠ []) :
    DataAt fs i off r ↔ ∃ f, fs[i]? = some f ∧ (f.take (off + r.length)).drop off = r := by
  constructor
  · rintro ⟨pre, post, h1, h2⟩
    refine ⟨_, h1, ?_⟩
    subst h2
    rw [show pre ++ (r ++ post) = (pre ++ r) ++ post by simp, ← List.length_append, List.take_left', List.drop_left']
    · rfl
    · rfl
  · rintro ⟨f, h1, h2⟩
    have hp : 0 < r.length := List.length_pos_iff.2 hr
    have hl : off + r.length ≤ f.length := by
      have := congrArg List.length h2
      simp only [List.length_drop, List.length_take] at this
      omega
    refine ⟨f.take off, f.drop (off + r.length), ?_, by simp; omega⟩
    rw [h1, Option.some.injEq]
    have h3 : f.take (off + r.length) = f.take off ++ r := by
      rw [← List.take_append_drop off (f.take (off + r.length)), h2, List.take_take, Nat.min_eq_left (by omega)]
    rw [← List.append_assoc, ← h3, List.take_append_drop]

theorem encDHdr_len (h : DHdr) : (encDHdr h).length = 18 := by simp [encDHdr]

/-- A record whose bytes are the same in the new file is still there. -/
theorem Stored.undamaged {s : Store} {E : Entry} {p new old k : Bytes} {w : Spot} (h : Stored s.dfiles E p)
    (hid : E.id = k) (hp : w.payload = p) (hf : E.dataid = w.file) (hst : E.offset + (18 + k.length + p.length) = w.stop)
    {i : Nat} (hi : i < s.dfiles.length) (ho : s.dfiles[i]? = some old)
    (hn : ¬ (i = w.file ∧ w.bytes k new ≠ w.bytes k old)) : Stored (s.damaged i new).dfiles E p := by
  refine ⟨h.live, h.ok.wf, h.ok.len, h.ok.crc, h.ok.flags, ?_⟩
  obtain ⟨prev, hprev, hd⟩ := h.ok.data
  refine ⟨prev, hprev, ?_⟩
  by_cases hw : i = w.file
  · have hb : w.bytes k new = w.bytes k old := by
      by_cases hb : w.bytes k new = w.bytes k old
      · exact hb
      · exact absurd ⟨hw, hb⟩ hn
    generalize hr : encDHdr (recHdr prev (entryRec E p)) ++ ((entryRec E p).item.id ++ (entryRec E p).payload) = r at hd ⊢
    have hl : r.length = 18 + k.length + p.length := by
      rw [← hr]; simp only [List.length_append, encDHdr_len, entryRec, itemOf, hid]; omega
    have hr0 : r ≠ [] := by intro h0; rw [h0] at hl; simp at hl; omega
    rw [dataAt_bytes hr0] at hd ⊢
    obtain ⟨f, h1, h2⟩ := hd
    have e1 : E.dataid = i := by rw [hf, hw]
    have e2 : (entryRec E p).item.offset = E.offset := rfl
    rw [e1, ho] at h1
    injection h1 with h1
    subst h1
    refine ⟨new, by rw [e1]; simp [Store.damaged, hi], ?_⟩
    rw [e2, hl, hst] at h2 ⊢
    unfold Spot.bytes at hb
    have e3 : w.stop - (18 + k.length + w.payload.length) = E.offset := by rw [hp, ← hst]; omega
    rw [e3] at hb
    rw [hb, h2]
  · refine hd.same ?_
    rw [hf]
    simp only [Store.damaged]
    exact List.getElem?_set_ne hw

theorem LossInv.damage {br : Branches} {u : Nat} {s : Store} {F : List Bytes} {k : Bytes} {a : Option Spot}
    (h : LossInv br u s F k a) {i : Nat} {old new : Bytes} (hi : i < s.dataid) (ho : s.dfiles[i]? = some old) (r : Reply) (n m : Nat) :
    ∃ F', LossInv br u (s.damaged i new) F' k (spotStep k a ⟨.damage i old new, r, n, m⟩) ∧
      (CutOf s F → new <+: old → CutOf (s.damaged i new) F') := by
  have hun := h.under
  have hil : i < s.dfiles.length := by unfold Under at hun; omega
  have hFl : F.length ≤ s.dfiles.length := by unfold Under at hun; omega
  have hgl : (s.gh F).dfiles.length = s.dfiles.length := gh_len hFl
  have hF2 : ((s.gh F).dfiles.take s.dataid).length = s.dataid := by
    rw [List.length_take, hgl]; unfold Under at hun; omega
  have hg : (s.damaged i new).gh ((s.gh F).dfiles.take s.dataid) = s.gh F := by
    have : (s.gh F).dfiles.take s.dataid ++ (s.damaged i new).dfiles.drop s.dataid = (s.gh F).dfiles := by
      have h1 : (s.damaged i new).dfiles.drop s.dataid = (s.gh F).dfiles.drop s.dataid := by
        apply List.ext_getElem?
        intro j
        rw [List.getElem?_drop, List.getElem?_drop]
        simp only [Store.gh]
        rw [gh_get (by unfold Under at hun; omega)]
        exact List.getElem?_set_ne (by omega)
      rw [h1, List.take_append_drop]
    unfold Store.gh at this hF2 ⊢
    rw [hF2, this]
    rfl
  refine ⟨(s.gh F).dfiles.take s.dataid, ⟨⟨?_, ?_⟩, ⟨?_, h.step.i, h.step.same⟩, ?_, ?_⟩, ?_⟩
  · rw [hF2]; exact Nat.le_refl _
  · simp only [Store.damaged, List.length_set]; exact hun.2
  · simp only [Store.damaged, List.length_set]; exact h.step.d
  · rw [hg]; exact h.inv
  · simp only [spotStep]
    cases a with
    | none => exact h.key
    | some w =>
      obtain ⟨E, k1, k2, k3, k4, k5⟩ := h.key
      simp only [Option.map_some]
      by_cases hc : i = w.file ∧ w.bytes k new ≠ w.bytes k old
      · rw [if_pos hc]
        exact ⟨E, k1, by rw [hg]; exact k2, k3, k4, fun h0 => by simp at h0⟩
      · rw [if_neg hc]
        exact ⟨E, k1, by rw [hg]; exact k2, k3, k4,
          fun h0 => (k5 h0).undamaged (mem_keyEnts k1).2 rfl k3 k4 hil ho hc⟩
  · intro hcut hpre j f hf
    rw [hg]
    by_cases hj : i = j
    · subst hj
      simp only [Store.damaged, List.getElem?_set_self hil] at hf
      injection hf with hf
      subst hf
      obtain ⟨x, hx⟩ := hcut i _ ho
      obtain ⟨y, rfl⟩ := hpre
      exact ⟨y ++ x, by rw [hx]; simp⟩
    · simp only [Store.damaged, List.getElem?_set_ne hj] at hf
      exact hcut j f hf

theorem LossInv.run {cfg : Option Mode} (hcfg : cfg = none ∨ cfg = some .user) {u : Nat} {br br' : Branches}
    {s s' : Store} {tr : List LossItem} (hr : LossSteps cfg u br s tr br' s') {F : List Bytes} {k : Bytes}
    {a : Option Spot} (h : LossInv br u s F k a) (hev : ∀ x ∈ tr, LossOK x) (hcap : s.indexid + 1 + tr.length < 2 ^ 32) :
    ∃ F', LossInv br' u s' F' k (tr.foldl (spotStep k) a) ∧
      (CutOf s F → (∀ x ∈ tr, IsCut x) → CutOf s' F') := by
  induction hr generalizing F a with
  | nil br s => exact ⟨F, h, fun h _ => h⟩
  | @ev e r br br1 br2 s s1 s2 tr h1 h2 ih =>
    have he := hev _ (List.mem_cons_self ..)
    simp only [List.length_cons] at hcap
    have key : LossInv br1 u s1 F k (spotStep k a ⟨.ev e, r, s1.dataid, fileLen s1.dfiles s1.dataid⟩) ∧
        (CutOf s F → CutOf s1 F) ∧ s1.indexid ≤ s.indexid + 1 := by
      cases h1 with
      | cmd c d argv hu h1 h3 =>
        cases h3
        subst hu
        exact h.command he.1 d he.2 (by omega) h1
      | foreign h1 h3 =>
        cases h3
        exact ⟨h.foreign h1, fun h => h, by omega⟩
      | reload h1 h3 =>
        cases h3
        obtain ⟨j1, j2, j3⟩ := h.reload hcfg (by omega) h1
        refine ⟨j1, fun hcut i f hf => ?_, by omega⟩
        rw [j2] at hf
        simp only [Store.gh, j2]
        exact hcut i f hf
    obtain ⟨j1, j2, j3⟩ := key
    obtain ⟨F', m1, m2⟩ := ih j1 (fun x hx => hev x (List.mem_cons_of_mem _ hx)) (by omega)
    exact ⟨F', m1, fun hc ha => m2 (j2 hc) (fun x hx => ha x (List.mem_cons_of_mem _ hx))⟩
  | @damage i old new br br2 s s2 tr hi ho h2 ih =>
    simp only [List.length_cons] at hcap
    obtain ⟨F1, j1, j2⟩ := h.damage (new := new) hi ho .nil s.dataid (fileLen s.dfiles s.dataid)
    obtain ⟨F', m1, m2⟩ := ih j1 (fun x hx => hev x (List.mem_cons_of_mem _ hx))
      (by have : (s.damaged i new).indexid = s.indexid := rfl
          omega)
    exact ⟨F', m1, fun hc ha => m2 (j2 hc (ha _ (List.mem_cons_self ..))) (fun x hx => ha x (List.mem_cons_of_mem _ hx))⟩

/-- From a new namespace. -/
theorem LossRun.inv {cfg : Option Mode} {u : Nat} {tr : List LossItem} {br : Branches} {s : Store}
    (h : LossRun cfg u tr br s) (k : Bytes) :
    ∃ F, LossInv br u s F k (spotOf k tr) ∧ ((∀ x ∈ tr, IsCut x) → CutOf s F) := by
  obtain ⟨br0, b, t, h0, h1, h2⟩ := h.run
  have hm : cfg.getD .user = .user := by rcases h.hcfg with rfl | rfl <;> rfl
  rw [freshNs_eq, hm] at h1
  injection h1 with h1 h1'
  subst h1; subst h1'
  have hg : (freshStore .user).gh [] = freshStore .user := rfl
  have hlen := h.len
  unfold maxEvents at hlen
  obtain ⟨F, i1, i2⟩ := LossInv.run h.hcfg h2 (F := []) (k := k) (a := none)
    ⟨⟨Nat.zero_le _, by decide⟩, ⟨by decide, by decide, by decide⟩,
      ⟨[[]], by rw [hg]; exact freshStore_uinv br0 u h0⟩, by
        show keyEnts br0 u k = []
        have : nsBranch br0 u (keyHash k) = [] := h0 _
        simp [keyEnts, this]⟩ h.ev
    (by have : (freshStore .user).indexid = 0 := rfl
        omega)
  exact ⟨F, i1, fun hc => i2 (fun i f hf => ⟨[], by rw [hg]; simpa using hf⟩) hc⟩

end Zdb
