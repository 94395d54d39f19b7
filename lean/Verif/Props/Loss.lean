/-
Data files that are lost, cut or corrupted: C69.
-/
import Verif.Lemmas.Loss
import Verif.Props.Crash
import Verif.Spec.Fault
namespace Zdb

theorem LossInv.reads {c : Ctx} {br : Branches} {s : Store} {F : List Bytes} {k : Bytes} {a : Option Spot}
    (h : LossInv br c.u s F k a) (name : Bytes) (hn : name ≠ []) (hk : k ≠ []) (hl : k.length ≤ 255)
    (hf : c.conf.lock ≠ .frozen) (g : Bytes → Reply) : readChecks c [name, k] g = g k := by
  have hl' : ¬ 255 < k.length := by omega
  simp [readChecks, argsValidate, hn, hk, hl', NsConf.isFrozen, hf]

theorem LossInv.mode {br : Branches} {u : Nat} {s : Store} {F : List Bytes} {k : Bytes} {a : Option Spot}
    (h : LossInv br u s F k a) : s.mode = .user := h.inv.elim fun _ hG => hG.mode

theorem KeyAt.indexGet {br : Branches} {u : Nat} {s : Store} {F : List Bytes} {k : Bytes} {a : Option Spot}
    (h : KeyAt br u s F k a) (hm : s.mode = .user) :
    (a = none ∧ indexGet br s u k = none) ∨
    ∃ E w, a = some w ∧ indexGet br s u k = some E ∧ E.id = k ∧ Stored (s.gh F).dfiles E w.payload ∧ E.dataid = w.file ∧
      E.offset + (18 + k.length + w.payload.length) = w.stop ∧ (w.whole = true → Stored s.dfiles E w.payload) := by
  cases a with
  | none =>
    have h' : keyEnts br u k = [] := h
    left; simp [Zdb.indexGet, hm, brGet_keyEnts, h']
  | some w =>
    obtain ⟨E, k1, k2⟩ := h
    exact Or.inr ⟨E, w, rfl, by simp [Zdb.indexGet, hm, brGet_keyEnts, k1, k2.1.live], (mem_keyEnts k1).2, k2⟩

/-- C69, what is left alone: whatever happened to the data files that are not written to any more, between any
    commands and restarts, a key whose own record has the bytes it was written with reads the payload
    of its last acknowledged SET, and a key without a value has none.  Missing: sequential mode
    and damage to the current data file (`C69_current_refuted`). -/
theorem C69_partial {cfg : Option Mode} {u : Nat} {tr : List LossItem} {br : Branches} {s : Store}
    (h : LossRun cfg u tr br s) (k : Bytes) (hw : ∀ w, spotOf k tr = some w → w.whole = true)
    (c : Ctx) (hu : c.u = u) (name : Bytes) (hn : name ≠ []) (hk : k ≠ []) (hl : k.length ≤ 255)
    (hf : c.conf.lock ≠ .frozen) :
    cmdGet c br s [name, k] = getReply ((spotOf k tr).map Spot.payload) ∧
    cmdCheck c br s [name, k] = checkReply ((spotOf k tr).map Spot.payload) := by
  subst hu
  obtain ⟨F, hi, -⟩ := h.inv k
  unfold cmdGet cmdCheck
  rw [hi.reads name hn hk hl hf, hi.reads name hn hk hl hf, getSingle]
  rcases hi.key.indexGet hi.mode with ⟨h1, h2⟩ | ⟨E, w, h1, h2, h3, h4, h5, h6, h7⟩
  · rw [h1, h2]; exact ⟨rfl, rfl⟩
  · have hst := h7 (hw w h1)
    rw [h1, h2]
    have e1 := hst.ok.dataGet
    have e2 := hst.ok.dataCheck
    simp only [entryRec, itemOf] at e1 e2
    simp only [e1, e2]
    exact ⟨rfl, rfl⟩

/-- C69, what the index holds: no damage to the data files changes which keys there are, nor the lengths of
    their values. -/
theorem C69_index_partial {cfg : Option Mode} {u : Nat} {tr : List LossItem} {br : Branches} {s : Store}
    (h : LossRun cfg u tr br s) (k : Bytes) (c : Ctx) (hu : c.u = u) (name : Bytes) (hn : name ≠ []) (hk : k ≠ [])
    (hl : k.length ≤ 255) (hf : c.conf.lock ≠ .frozen) :
    cmdExists c br s [name, k] = existsReply ((spotOf k tr).map Spot.payload) ∧
    cmdLength c br s [name, k] = lengthReply ((spotOf k tr).map Spot.payload) := by
  subst hu
  obtain ⟨F, hi, -⟩ := h.inv k
  unfold cmdExists cmdLength
  rw [hi.reads name hn hk hl hf, hi.reads name hn hk hl hf]
  rcases hi.key.indexGet hi.mode with ⟨h1, h2⟩ | ⟨E, w, h1, h2, h3, h4, -⟩
  · rw [h1, h2]; exact ⟨rfl, rfl⟩
  · rw [h1, h2]
    have e1 := h4.ok.len
    simp only [entryRec, itemOf] at e1
    simp only [e1]
    exact ⟨rfl, rfl⟩

theorem bytesAt_eq (f : Bytes) (a n : Nat) (hn : 0 < n) : readExact f a n = bytesAt f a n := by
  unfold bytesAt
  split
  · rename_i h; rw [readExact_isSome h]; rfl
  · rename_i h; exact readExact_eq_none hn (by omega)

/-- C69, exactly what is read: GET answers the bytes that are where the payload was written, and an error if the
    file ends before; nothing else in the file, and no other file, matters.  Missing: empty payloads. -/
theorem C69_place_partial {cfg : Option Mode} {u : Nat} {tr : List LossItem} {br : Branches} {s : Store}
    (h : LossRun cfg u tr br s) (k : Bytes) {w : Spot} (hw : spotOf k tr = some w) (hp : w.payload ≠ [])
    (c : Ctx) (hu : c.u = u) (name : Bytes) (hn : name ≠ []) (hk : k ≠ []) (hl : k.length ≤ 255)
    (hf : c.conf.lock ≠ .frozen) :
    ∃ f, s.dfiles[w.file]? = some f ∧
      cmdGet c br s [name, k] = foundReply (bytesAt f (w.stop - w.payload.length) w.payload.length) := by
  subst hu
  obtain ⟨F, hi, -⟩ := h.inv k
  unfold cmdGet
  rw [hi.reads name hn hk hl hf, getSingle]
  rcases hi.key.indexGet hi.mode with ⟨h1, h2⟩ | ⟨E, w', h1, h2, h3, h4, h5, h6, -⟩
  · rw [h1] at hw; cases hw
  · rw [hw] at h1; injection h1 with h1; subst h1
    have hpl : 0 < w.payload.length := List.length_pos_iff.2 hp
    obtain ⟨g, -, -, hg, -⟩ := h4.ok.readHdr
    have hlt : w.file < s.dfiles.length := by
      rw [h5] at hg
      have h7 := (List.getElem?_eq_some_iff.1 hg).1
      have h8 := hi.under
      unfold Under at h8
      have h9 : (s.gh F).dfiles.length = s.dfiles.length := gh_len (by omega)
      omega
    refine ⟨_, List.getElem?_eq_getElem hlt, ?_⟩
    rw [h2]
    have e1 : E.length = w.payload.length := h4.ok.len
    have e2 : E.offset + dhdrLen + E.id.length = w.stop - w.payload.length := by rw [h3, ← h6, dhdrLen]; omega
    simp only [dataGet, h5, List.getElem?_eq_getElem hlt]
    have e3 : ¬ E.length = 0 := by omega
    simp only [e3, if_false]
    rw [e2, e1, bytesAt_eq _ _ _ hpl]
    cases bytesAt s.dfiles[w.file] (w.stop - w.payload.length) w.payload.length <;> rfl

/-- C69, loss of ends of files or of whole files: a key reads the payload of its last acknowledged SET if the file
    still reaches to the end of the record, and otherwise GET answers an error and CHECK -1: never other
    bytes.  Missing: empty payloads. -/
theorem C69_cut_partial {cfg : Option Mode} {u : Nat} {tr : List LossItem} {br : Branches} {s : Store}
    (h : LossRun cfg u tr br s) (hcut : ∀ x ∈ tr, IsCut x) (k : Bytes) {w : Spot} (hw : spotOf k tr = some w)
    (hp : w.payload ≠ []) (c : Ctx) (hu : c.u = u) (name : Bytes) (hn : name ≠ []) (hk : k ≠ []) (hl : k.length ≤ 255)
    (hf : c.conf.lock ≠ .frozen) :
    ∃ f, s.dfiles[w.file]? = some f ∧
      cmdGet c br s [name, k] = (if w.stop ≤ f.length then .bulk w.payload else .err "Internal Error") ∧
      cmdCheck c br s [name, k] = .int (if w.stop ≤ f.length then 1 else -1) := by
  subst hu
  obtain ⟨F, hi, hc⟩ := h.inv k
  unfold cmdGet cmdCheck
  rw [hi.reads name hn hk hl hf, hi.reads name hn hk hl hf, getSingle]
  rcases hi.key.indexGet hi.mode with ⟨h1, h2⟩ | ⟨E, w', h1, h2, h3, h4, h5, h6, -⟩
  · rw [h1] at hw; cases hw
  · rw [hw] at h1; injection h1 with h1; subst h1
    have hpl : 0 < w.payload.length := List.length_pos_iff.2 hp
    obtain ⟨g, prev, hprev, hg, hr1, hr2⟩ := h4.ok.readHdr
    have hlt : w.file < s.dfiles.length := by
      rw [h5] at hg
      have h7 := (List.getElem?_eq_some_iff.1 hg).1
      have h8 := hi.under
      unfold Under at h8
      have h9 : (s.gh F).dfiles.length = s.dfiles.length := gh_len (by omega)
      omega
    have hs := List.getElem?_eq_getElem hlt
    obtain ⟨x, hx⟩ := hc hcut _ _ hs
    refine ⟨_, hs, ?_⟩
    generalize s.dfiles[w.file] = f at hs hx ⊢
    rw [h5, hx] at hg
    injection hg with hg
    subst hg
    have hwf := recHdr_wf h4.ok hprev
    have e1 : E.length = w.payload.length := h4.ok.len
    simp only [entryRec, itemOf] at hr1 hr2
    have hdec := decDHdr_encDHdr _ hwf
    simp only [recHdr, entryRec, itemOf, h3, e1] at hdec
    simp only [dhdrLen, recHdr, h3, e1] at hr1 hr2
    have e3 : ¬ w.payload.length = 0 := by omega
    have hcrc : E.crc = crc32 w.payload := h4.ok.crc
    rw [h2]
    simp only [dataGet, dataCheck, h5, hs, e1, e3, if_false, h3, dhdrLen]
    by_cases hst : w.stop ≤ f.length
    · rw [readExact_append_left (by omega)] at hr1 hr2
      rw [hr1, hr2]
      simp only [if_pos hst, hdec, hr2]
      simp only [hcrc, if_true, and_self]
    · rw [readExact_eq_none hpl (by omega)]
      simp only [if_neg hst, true_and]
      by_cases hh : E.offset + 18 ≤ f.length
      · rw [readExact_append_left (by omega)] at hr1
        rw [hr1]
        simp only [hdec]
        rw [readExact_eq_none hpl (by omega)]
      · rw [readExact_eq_none (by omega) (by omega)]

theorem setWrite_ne_nil (c : Ctx) (br : Branches) (s : Store) (id p : Bytes) (ts : Nat) (ex : Option Entry) :
    (setWrite c br s id p ts ex).2.2 ≠ .nil := by
  unfold setWrite
  generalize dataInsert s c.io id p 0 (crc32 p) ts = x
  obtain ⟨s1, off⟩ := x
  simp only
  split
  · simp
  · cases ex with
    | none =>
      simp only
      generalize insertUser br s1 c.u c.io ⟨id, off, p.length, crc32 p, 0, ts⟩ = y
      obtain ⟨b, t, ok⟩ := y
      cases ok <;> simp
    | some e =>
      simp only
      generalize updateUser br s1 c.u c.io ⟨id, off, p.length, crc32 p, 0, ts⟩ e = y
      obtain ⟨b, t, ok⟩ := y
      cases ok <;> simp

/-- C69, SETs: a SET answered with nil, which stores nothing as the payload is there already, is answered so only if
    it is there: GET answers it.  Missing: empty payloads. -/
theorem C69_set_partial {cfg : Option Mode} {u : Nat} {tr : List LossItem} {br br' : Branches} {s s' : Store}
    (h : LossRun cfg u tr br s) (c : Ctx) (hu : c.u = u) {n k p : Bytes} {rest : List Bytes}
    (hd : dsCommand c br s .set (n :: k :: p :: rest) = (br', s', .nil)) (hp : p ≠ [])
    (hp32 : p.length < 2 ^ 32) (c' : Ctx) (hu' : c'.u = u)
    (name : Bytes) (hn : name ≠ []) (hf : c'.conf.lock ≠ .frozen) : cmdGet c' br' s' [name, k] = .bulk p := by
  subst hu
  obtain ⟨F, hi, -⟩ := h.inv k
  have hm := hi.mode
  have hpl : 0 < p.length := List.length_pos_iff.2 hp
  have key : ∀ argv, cmdSet.body c br s argv k p = (br', s', .nil) → cmdGet c' br' s' [name, k] = .bulk p := by
    intro argv hb
    unfold cmdSet.body at hb
    split at hb
    · simp at hb
    rename_i hkl
    split at hb
    · simp [errReadOnly] at hb
    split at hb
    · simp [errFrozen] at hb
    split at hb
    · simp [errLocked] at hb
    dsimp only at hb
    generalize hex : (if k.length ≠ 0 then indexGet br s c.u k else none) = ex at hb
    split at hb
    · simp at hb
    split at hb
    · simp at hb
    have htm := (jumpIfFull_calm c.limit s p.length).1
    generalize jumpIfFull c.limit s p.length = t at hb htm
    simp only [hm] at hb
    rw [setHandlerUser_eq] at hb
    split at hb
    · simp at hb
    rename_i hk0
    rw [if_pos hk0] at hex
    split at hb
    · rename_i hut
      simp only [Prod.mk.injEq, and_true] at hb
      obtain ⟨rfl, rfl⟩ := hb
      have hk : k ≠ [] := by intro h0; rw [h0] at hk0; exact hk0 rfl
      unfold cmdGet
      have hl' : ¬ 255 < k.length := by omega
      have hr : readChecks c' [name, k] (getSingle c' br t) = getSingle c' br t k := by
        simp [readChecks, argsValidate, hn, hk, hl', NsConf.isFrozen, hf]
      rw [hr, getSingle, hu']
      have hgt : indexGet br t c.u k = ex := by
        rw [← hex]; unfold indexGet; rw [htm, hm]
      rw [hgt]
      cases ex with
      | none => simp [upToDate] at hut
      | some e =>
        simp only [upToDate, Bool.and_eq_true, compareMatching] at hut
        obtain ⟨-, hut⟩ := hut
        split at hut
        · simp at hut
        rename_i hle
        have hle' : e.length = p.length := by rw [Nat.mod_eq_of_lt hp32] at hle; omega
        have he0 : ¬ e.length = 0 := by omega
        simp only
        cases hg : dataGet t e.offset e.length e.dataid e.id.length with
        | none => simp [hg] at hut
        | some v =>
          simp only [hg, beq_iff_eq] at hut
          have hv : v.length = p.length := by
            unfold dataGet at hg
            split at hg
            · simp at hg
            · simp only [he0, if_false] at hg
              have := (readExact_some hg).2
              omega
          rw [← hv, List.take_length] at hut
          simp only [hut]
    · exfalso
      exact setWrite_ne_nil c br t k p _ ex (by rw [hb])
  unfold dsCommand cmdSet at hd
  match rest, hd with
  | [], hd => exact key _ hd
  | [t], hd =>
    simp only at hd
    by_cases had : c.admin = true
    · simp only [had, if_true] at hd
      exact key _ hd
    · simp only [had, errDenied] at hd
      simp at hd
  | _ :: _ :: _, hd => simp [errArgs] at hd

/-! ### an execution with damage -/

/-- What may be done in an example. -/
inductive LossAct where
  | cmd (d : DsCmd) (argv : List Bytes)
  | keep (i n : Nat)
  | patch (i : Nat) (new : Bytes)
  | restart

/-- The execution of some acts, if they are possible. -/
def lossActs (br : Branches) (s : Store) : List LossAct → Option (List LossItem × Branches × Store)
  | [] => some ([], br, s)
  | .cmd d argv :: l =>
    let x := dsCommand exCtx br s d argv
    (lossActs x.1 x.2.1 l).map fun y =>
      (⟨.ev (.cmd exCtx d argv), x.2.2, x.2.1.dataid, fileLen x.2.1.dfiles x.2.1.dataid⟩ :: y.1, y.2)
  | .keep i n :: l =>
    if i < s.dataid then
      match s.dfiles[i]? with
      | some f => (lossActs br (s.damaged i (f.take n)) l).map fun y =>
          (⟨.damage i f (f.take n), .nil, s.dataid, fileLen s.dfiles s.dataid⟩ :: y.1, y.2)
      | none => none
    else none
  | .patch i new :: l =>
    if i < s.dataid then
      match s.dfiles[i]? with
      | some f => (lossActs br (s.damaged i new) l).map fun y =>
          (⟨.damage i f new, .nil, s.dataid, fileLen s.dfiles s.dataid⟩ :: y.1, y.2)
      | none => none
    else none
  | .restart :: l =>
    match reloadNs none br 7 s with
    | .ok b t => (lossActs b t l).map fun y =>
        (⟨.ev .reload, .ok, t.dataid, fileLen t.dfiles t.dataid⟩ :: y.1, y.2)
    | _ => none

theorem lossActs_steps (l : List LossAct) : ∀ (br : Branches) (s : Store) (y : List LossItem × Branches × Store),
    lossActs br s l = some y → LossSteps none 7 br s y.1 y.2.1 y.2.2 := by
  induction l with
  | nil => intro br s y h; simp only [lossActs, Option.some.injEq] at h; subst h; exact .nil br s
  | cons a l ih =>
    intro br s y h
    cases a with
    | cmd d argv =>
      simp only [lossActs, Option.map_eq_some_iff] at h
      obtain ⟨z, h1, rfl⟩ := h
      exact .ev _ _ (.cmd exCtx d argv rfl rfl (.nil _ _)) (ih _ _ _ h1)
    | keep i n =>
      simp only [lossActs] at h
      split at h
      · rename_i hi
        split at h
        · rename_i f hf
          simp only [Option.map_eq_some_iff] at h
          obtain ⟨z, h1, rfl⟩ := h
          exact .damage i f _ hi hf (ih _ _ _ h1)
        · cases h
      · cases h
    | patch i new =>
      simp only [lossActs] at h
      split at h
      · rename_i hi
        split at h
        · rename_i f hf
          simp only [Option.map_eq_some_iff] at h
          obtain ⟨z, h1, rfl⟩ := h
          exact .damage i f _ hi hf (ih _ _ _ h1)
        · cases h
      · cases h
    | restart =>
      simp only [lossActs] at h
      split at h
      · rename_i b t hr
        simp only [Option.map_eq_some_iff] at h
        obtain ⟨z, h1, rfl⟩ := h
        exact .ev _ _ (.reload hr (.nil _ _)) (ih _ _ _ h1)
      · cases h

/-- Acts covered. -/
def LossAct.OK : LossAct → Prop
  | .cmd _ argv => ArgsOK argv
  | _ => True

theorem lossActs_ok (l : List LossAct) (hl : ∀ a ∈ l, a.OK) :
    ∀ (br : Branches) (s : Store) (y : List LossItem × Branches × Store),
    lossActs br s l = some y → (∀ x ∈ y.1, LossOK x) ∧ y.1.length = l.length := by
  induction l with
  | nil => intro br s y h; simp only [lossActs, Option.some.injEq] at h; subst h; simp
  | cons a l ih =>
    intro br s y h
    have ih := ih (fun x hx => hl x (List.mem_cons_of_mem _ hx))
    have ha := hl a (List.mem_cons_self ..)
    cases a with
    | cmd d argv =>
      simp only [lossActs, Option.map_eq_some_iff] at h
      obtain ⟨z, h1, rfl⟩ := h
      obtain ⟨j1, j2⟩ := ih _ _ _ h1
      refine ⟨fun x hx => ?_, by simp [j2]⟩
      rcases List.mem_cons.1 hx with rfl | hx
      · exact ⟨exCtx_ok, ha⟩
      · exact j1 x hx
    | keep i n =>
      simp only [lossActs] at h
      split at h
      · split at h
        · simp only [Option.map_eq_some_iff] at h
          obtain ⟨z, h1, rfl⟩ := h
          obtain ⟨j1, j2⟩ := ih _ _ _ h1
          refine ⟨fun x hx => ?_, by simp [j2]⟩
          rcases List.mem_cons.1 hx with rfl | hx
          · trivial
          · exact j1 x hx
        · cases h
      · cases h
    | patch i new =>
      simp only [lossActs] at h
      split at h
      · split at h
        · simp only [Option.map_eq_some_iff] at h
          obtain ⟨z, h1, rfl⟩ := h
          obtain ⟨j1, j2⟩ := ih _ _ _ h1
          refine ⟨fun x hx => ?_, by simp [j2]⟩
          rcases List.mem_cons.1 hx with rfl | hx
          · trivial
          · exact j1 x hx
        · cases h
      · cases h
    | restart =>
      simp only [lossActs] at h
      split at h
      · simp only [Option.map_eq_some_iff] at h
        obtain ⟨z, h1, rfl⟩ := h
        obtain ⟨j1, j2⟩ := ih _ _ _ h1
        refine ⟨fun x hx => ?_, by simp [j2]⟩
        rcases List.mem_cons.1 hx with rfl | hx
        · trivial
        · exact j1 x hx
      · cases h

/-- An example is an execution. -/
theorem lossActs_run {l : List LossAct} (hl : ∀ a ∈ l, a.OK) (hn : l.length ≤ maxEvents)
    {y : List LossItem × Branches × Store} (h : lossActs (fun _ => []) (freshStore .user) l = some y) :
    LossRun none 7 y.1 y.2.1 y.2.2 where
  hcfg := Or.inl rfl
  run := ⟨fun _ => [], fun _ => [], freshStore .user, fun _ => rfl, freshNs_eq none _ 7, lossActs_steps l _ _ _ h⟩
  ev := (lossActs_ok l hl _ _ _ h).1
  len := by rw [(lossActs_ok l hl _ _ _ h).2]; exact hn

/-- Two keys in the first file and one in the second; then the first file loses the end of its second record;
    restart. -/
def exLossActs : List LossAct :=
    [.cmd .set [str "SET", str "a", str "one"], .cmd .set [str "SET", str "b", str "two"], .cmd .nsjump [str "NSJUMP"],
     .cmd .set [str "SET", str "c", str "three"], .keep 0 71, .restart, .cmd .set [str "SET", str "d", str "four"]]

def exLoss : Option (List LossItem × Branches × Store) := lossActs (fun _ => []) (freshStore .user) exLossActs

set_option maxRecDepth 100000 in
/-- It is one of the executions the theorems speak of. -/
theorem exLoss_run : ∃ y, exLoss = some y ∧ LossRun none 7 y.1 y.2.1 y.2.2 := by
  have h : exLoss.isSome = true := rfl
  obtain ⟨y, hy⟩ := Option.isSome_iff_exists.1 h
  refine ⟨y, hy, lossActs_run (l := exLossActs) ?_ (by decide) hy⟩
  intro a ha
  simp only [exLossActs, List.mem_cons, List.not_mem_nil, or_false] at ha
  rcases ha with rfl | rfl | rfl | rfl | rfl | rfl | rfl
  all_goals first | trivial | exact ⟨⟨_, _, rfl, by decide⟩, by decide⟩

set_option maxRecDepth 100000 in
/-- The replies, and what the keys read afterwards. -/
theorem exLoss_says :
    exLoss.map (fun x => x.1.map LossItem.reply) =
      some [.bulk (str "a"), .bulk (str "b"), .ok, .bulk (str "c"), .nil, .ok, .bulk (str "d")] ∧
    exLoss.map (fun x => [str "a", str "b", str "c", str "d"].map fun k => cmdGet exCtx x.2.1 x.2.2 [str "GET", k]) =
      some [.bulk (str "one"), .err "Internal Error", .bulk (str "three"), .bulk (str "four")] ∧
    exLoss.map (fun x => [str "a", str "b", str "c", str "d"].map fun k => cmdCheck exCtx x.2.1 x.2.2 [str "CHECK", k]) =
      some [.int 1, .int (-1), .int 1, .int 1] ∧
    exLoss.map (fun x => [str "a", str "b"].map fun k => (spotOf k x.1)) =
      some [some ⟨str "one", 0, 50, true⟩, some ⟨str "two", 0, 72, false⟩] := ⟨rfl, rfl, rfl, rfl⟩

/-- The second record of the first file is overwritten in place with another payload. -/
def exPatchActs : List LossAct :=
  [.cmd .set [str "SET", str "a", str "one"], .cmd .set [str "SET", str "b", str "two"], .cmd .nsjump [str "NSJUMP"],
   .patch 0 (List.replicate 69 0 ++ str "TWO"), .cmd .set [str "SET", str "b", str "two"], .cmd .set [str "SET", str "a", str "x"]]

def exPatch : Option (List LossItem × Branches × Store) := lossActs (fun _ => []) (freshStore .user) (exPatchActs.take 4)
def exHealed : Option (List LossItem × Branches × Store) := lossActs (fun _ => []) (freshStore .user) exPatchActs

set_option maxRecDepth 100000 in
/-- GET answers what is there, right or not; the length is known from the index; setting the same payload again stores
    it, as the bytes are compared. -/
theorem exPatch_says :
    exPatch.map (fun x => [str "a", str "b"].map fun k => cmdGet exCtx x.2.1 x.2.2 [str "GET", k]) =
      some [.bulk [0, 0, 0], .bulk (str "TWO")] ∧
    exPatch.map (fun x => [str "a", str "b"].map fun k => cmdLength exCtx x.2.1 x.2.2 [str "LENGTH", k]) =
      some [.int 3, .int 3] ∧
    exHealed.map (fun x => x.1.map LossItem.reply) =
      some [.bulk (str "a"), .bulk (str "b"), .ok, .nil, .bulk (str "b"), .bulk (str "a")] ∧
    exHealed.map (fun x => [str "a", str "b"].map fun k => cmdGet exCtx x.2.1 x.2.2 [str "GET", k]) =
      some [.bulk (str "x"), .bulk (str "two")] := ⟨rfl, rfl, rfl, rfl⟩

/-- A key is set, the server is stopped, the only data file, which is the current one, is lost, the server is started
    again and another key is set. -/
def exCurrent : Option (Branches × Store × List Reply) :=
  let x := runCmds (fun _ => []) (freshStore .user) [(exCtx, .set, [str "SET", str "a", str "one"])]
  match reloadNs none x.1 7 { x.2.1 with dfiles := [] } with
  | .ok b t => some (runCmds b t
      [(exCtx, .get, [str "GET", str "a"]),
       (exCtx, .set, [str "SET", str "b", str "two"]),
       (exCtx, .get, [str "GET", str "a"]),
       (exCtx, .check, [str "CHECK", str "a"])])
  | _ => none

set_option maxRecDepth 100000 in
/-- C69 is false for the current data file: the new one is filled from the start, and the lost key reads the value of
    another key, which CHECK finds sound. -/
theorem C69_current_refuted : exCurrent.map (fun x => x.2.2) =
    some [.err "Internal Error", .bulk (str "b"), .bulk (str "two"), .int 1] := rfl

end Zdb
