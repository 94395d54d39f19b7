/-
Empty values in damaged data files: C69.
-/
import Verif.Props.LossSeq
namespace Zdb

theorem readExact_zero (f : Bytes) (off : Nat) : readExact f off 0 = some [] := by
  simp [readExact, pread]

/-- **C69**, empty values, loss of ends of files or of whole files: an empty value is always read; CHECK needs the header of its
    record, but not the id behind it. -/
theorem C69_cut_empty_partial {cfg : Option Mode} {u : Nat} {tr : List LossItem} {br : Branches} {s : Store}
    (h : LossRun cfg u tr br s) (hcut : ∀ x ∈ tr, IsCut x) (k : Bytes) {w : Spot} (hw : spotOf k tr = some w)
    (hp : w.payload = []) (c : Ctx) (hu : c.u = u) (name : Bytes) (hn : name ≠ []) (hk : k ≠ []) (hl : k.length ≤ 255)
    (hf : c.conf.lock ≠ .frozen) :
    ∃ f, s.dfiles[w.file]? = some f ∧ cmdGet c br s [name, k] = .bulk [] ∧
      cmdCheck c br s [name, k] = .int (if w.stop - k.length ≤ f.length then 1 else -1) := by
  subst hu
  obtain ⟨F, hi, hc⟩ := h.inv k
  unfold cmdGet cmdCheck
  rw [hi.reads name hn hk hl hf, hi.reads name hn hk hl hf, getSingle]
  rcases hi.key.indexGet hi.mode with ⟨h1, h2⟩ | ⟨E, w', h1, h2, h3, h4, h5, h6, -⟩
  · rw [h1] at hw; cases hw
  · rw [hw] at h1; injection h1 with h1; subst h1
    obtain ⟨g, prev, hprev, hg, hr1, hr2⟩ := h4.ok.readHdr
    have hlt : w.file < s.dfiles.length := by
      rw [h5] at hg
      have h7 := (List.getElem?_eq_some_iff.1 hg).1
      have h8 := hi.under
      unfold Under at h8
      have h9 : (s.gh F).dfiles.length = s.dfiles.length := gh_len (by omega)
      omega
    have hs := List.getElem?_eq_getElem hlt
    obtain ⟨x, hx⟩ := hc hcut _ _ hs
    refine ⟨_, hs, ?_⟩
    generalize s.dfiles[w.file] = f at hs hx ⊢
    rw [h5, hx] at hg
    injection hg with hg
    subst hg
    have hwf := recHdr_wf h4.ok hprev
    have e1 : E.length = w.payload.length := h4.ok.len
    rw [hp] at e1
    simp only [entryRec, itemOf] at hr1 hr2
    have hdec := decDHdr_encDHdr _ hwf
    simp only [recHdr, entryRec, itemOf, h3, e1] at hdec
    simp only [dhdrLen, recHdr, h3, e1] at hr1 hr2
    have hcrc : E.crc = crc32 w.payload := h4.ok.crc
    rw [hp] at hcrc h6
    simp only [List.length_nil] at e1 hdec hr1 h6
    rw [hcrc] at hdec hr1
    rw [h2]
    simp only [dataGet, dataCheck, h5, hs, e1, if_true, h3, dhdrLen]
    by_cases hst : w.stop - k.length ≤ f.length
    · rw [readExact_append_left (by omega)] at hr1
      rw [hr1]
      simp only [if_pos hst, hdec, if_true, readExact_zero, and_self]
    · rw [readExact_eq_none (by omega) (by omega)]
      simp only [if_neg hst, if_true, and_self]

/-- **C69**, empty values in sequential mode, loss of the end of a file or of all of it, read by the running process or after a
    restart. -/
theorem C69_seq_empty_partial {cfg : Option Mode} {u : Nat} {tr : List (NsEvent × Reply)} {br : Branches} {s : Store}
    (h : SeqRun cfg u tr br s) {k : Bytes} {v : Val} (hk : (specSeqRun [] (tr.map (·.1))).get k = some v) (hp : v.payload = []) :
    ∃ (j prev : Nat) (pre post : Bytes),
      s.dfiles[j]? = some (pre ++ ((encDHdr ⟨8, 0, prev, crc32 [], 0, v.time⟩ ++ k) ++ post)) ∧
      ∀ (fs : List Bytes), Damage s fs → ∀ (b : Branches) (t : Store), AfterDamage cfg u br s fs b t →
      ∀ f, fs[j]? = some f → f <+: pre ++ ((encDHdr ⟨8, 0, prev, crc32 [], 0, v.time⟩ ++ k) ++ post) →
      ∀ (c : Ctx) (name : Bytes), name ≠ [] → c.conf.lock ≠ .frozen →
        cmdGet c b t [name, k] = .bulk [] ∧
        cmdCheck c b t [name, k] = .int (if pre.length + 18 ≤ f.length then 1 else -1) := by
  obtain ⟨G, hG, habs, -⟩ := h.inv
  rw [← habs, absSlots_get, Option.map_eq_some_iff] at hk
  obtain ⟨l, hl, rfl⟩ := hk
  obtain ⟨h8, hpos, hmem, hlive, hid, hlt⟩ := hG.slot hl
  have hr := hG.getRec hl
  obtain ⟨prev, hprev, pre, post, e1, e2⟩ := hr.data
  have hp : l.r.payload = [] := hp
  have hid' : l.r.item.id = k := hid
  have hlen := hr.len
  have hcrc := hr.crc
  rw [hp] at hlen hcrc
  simp only [List.length_nil] at hlen
  have hwf := recHdr_wf hr hprev
  have hrec : encDHdr (recHdr prev l.r) = encDHdr ⟨8, 0, prev, crc32 [], 0, l.r.item.timestamp⟩ := by
    simp only [recHdr, hid', h8, hlen, hcrc]
  have hdec : decDHdr (encDHdr ⟨8, 0, prev, crc32 [], 0, l.r.item.timestamp⟩) =
      ⟨8, 0, prev, crc32 [], 0, l.r.item.timestamp⟩ := by
    have := decDHdr_encDHdr _ hwf
    simpa only [recHdr, hid', h8, hlen, hcrc] using this
  have e1' : s.dfiles[l.r.item.dataid]? =
      some (pre ++ ((encDHdr ⟨8, 0, prev, crc32 [], 0, l.r.item.timestamp⟩ ++ k) ++ post)) := by
    rw [e1, ← hrec, ← hid', hp, List.append_nil]
  refine ⟨l.r.item.dataid, prev, pre, post, e1', ?_⟩
  intro fs hd b t ht f hf hcut c name hn hfz
  obtain ⟨s0, hG', rfl⟩ := h.damaged hG hd ht
  have hi : indexGet b { s0 with dfiles := fs } c.u k = some (l.sentry c.u) := by
    have : indexGet b { s0 with dfiles := fs } c.u k = (slotGet G k).map (Loc.sentry c.u) :=
      hG'.indexGet c.u k (fun _ => Or.inl hlt)
    rw [this, hl]; rfl
  obtain ⟨x, hx⟩ := hcut
  have hx : f ++ x = pre ++ ((encDHdr ⟨8, 0, prev, crc32 [], 0, l.r.item.timestamp⟩ ++ k) ++ post) := hx
  unfold cmdGet cmdCheck
  rw [readChecks_near hn h8 hfz, readChecks_near hn h8 hfz, getSingle, hi]
  simp only [Loc.sentry, Loc.entry, dataGet, dataCheck, hf, hlen, if_true, ← e2, dhdrLen]
  by_cases hh : pre.length + 18 ≤ f.length
  · have h2 : readExact f pre.length 18 = some (encDHdr ⟨8, 0, prev, crc32 [], 0, l.r.item.timestamp⟩) := by
      have h3 : readExact (f ++ x) pre.length 18 = some (encDHdr ⟨8, 0, prev, crc32 [], 0, l.r.item.timestamp⟩) :=
        readExact_at (a := pre) (c := k ++ post) (by rw [hx]; simp) rfl (by simp [encDHdr_len])
      rwa [readExact_append_left (by omega)] at h3
    simp only [h2, hdec, readExact_zero, if_pos hh, if_true, and_self]
  · rw [readExact_eq_none (by omega) (by omega)]
    simp only [if_neg hh, if_true, and_self]

/-! ### a damaged header -/

/-- An empty value and another one in the first file; the byte of the header of the empty value that holds its length is changed; then
    the empty value is set again. -/
def exEmptyActs : List LossAct :=
  [.cmd .set [str "SET", str "a", []], .cmd .set [str "SET", str "b", str "two"], .cmd .nsjump [str "NSJUMP"]]

/-- The first file with another length of the first record. -/
def exEmptyFile : Bytes :=
  match lossActs (fun _ => []) (freshStore .user) exEmptyActs with
  | some x => match x.2.2.dfiles with
    | f :: _ => pwrite f 29 [22]
    | [] => []
  | none => []

def exLossEmptyAll : List LossAct := exEmptyActs ++ [.patch 0 exEmptyFile, .cmd .set [str "SET", str "a", []]]

def exEmptyReads : Option (List LossItem × Branches × Store) := lossActs (fun _ => []) (freshStore .user) exLossEmptyAll

set_option maxRecDepth 100000 in
/-- C69 is false for empty values whose header was changed: the length is then read from the header, GET answers the record of the
    next key, and setting the empty value again stores nothing, as no byte is compared. -/
theorem C69_empty_refuted :
    (∃ y, exEmptyReads = some y ∧ LossRun none 7 y.1 y.2.1 y.2.2) ∧
    exEmptyReads.map (fun x => x.1.map LossItem.reply) = some [.bulk (str "a"), .bulk (str "b"), .ok, .nil, .nil] ∧
    exEmptyReads.map (fun x => cmdLength exCtx x.2.1 x.2.2 [str "LENGTH", str "a"]) = some (.int 0) ∧
    exEmptyReads.map (fun x => cmdGet exCtx x.2.1 x.2.2 [str "GET", str "a"]) =
      some (.bulk ((exEmptyFile.drop 47).take 22)) ∧
    (exEmptyFile.drop 65).take 4 = str "btwo" := by
  refine ⟨?_, rfl, rfl, rfl, rfl⟩
  have h : exEmptyReads.isSome = true := rfl
  obtain ⟨y, hy⟩ := Option.isSome_iff_exists.1 h
  refine ⟨y, hy, lossActs_run (l := exLossEmptyAll) ?_ (by decide) hy⟩
  intro a ha
  simp only [exLossEmptyAll, exEmptyActs, List.cons_append, List.nil_append, List.mem_cons, List.not_mem_nil, or_false] at ha
  rcases ha with rfl | rfl | rfl | rfl | rfl
  all_goals first | trivial | exact ⟨⟨_, _, rfl, by decide⟩, by decide⟩

/-- An empty value whose file was cut just behind the header of its record, and one whose file was cut before: both are read, and
    CHECK tells them apart. -/
def exEmptyCut (n : Nat) : Option (List LossItem × Branches × Store) :=
  lossActs (fun _ => []) (freshStore .user) (exEmptyActs ++ [.keep 0 n, .restart])

set_option maxRecDepth 100000 in
theorem C69_cut_empty_example :
    [46, 45].map (fun n => (exEmptyCut n).map fun x =>
      (spotOf (str "a") x.1, cmdGet exCtx x.2.1 x.2.2 [str "GET", str "a"], cmdCheck exCtx x.2.1 x.2.2 [str "CHECK", str "a"])) =
    [some (some ⟨[], 0, 47, false⟩, .bulk [], .int 1), some (some ⟨[], 0, 47, false⟩, .bulk [], .int (-1))] := rfl

end Zdb
