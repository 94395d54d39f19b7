/-
C25, CHECK part, and C48: stored offsets are exact.  User mode.
-/
import Verif.Props.UserMap
import Verif.Props.Crc
namespace Zdb

theorem bufferBits_length (b : Bytes) : (bufferBits b).length = 8 * b.length := by
  induction b with
  | nil => rfl
  | cons x b ih =>
    have : bufferBits (x :: b) = (List.range 8).map (fun i => x.toNat.testBit i) ++ bufferBits b := by
      simp [bufferBits]
    rw [this, List.length_append, ih]
    simp; omega

theorem BurstDiff.length {p q : Bytes} (h : BurstDiff (bufferBits p) (bufferBits q)) : q.length = p.length := by
  obtain ⟨pre, x, y, post, hp, hq, hxy, -, -⟩ := h
  have h1 := bufferBits_length p
  have h2 := bufferBits_length q
  rw [hp] at h1; rw [hq] at h2
  simp only [List.length_append] at h1 h2
  omega

/-- C25 (5): after any execution of a user-key namespace, the payload `p` of a key is found in a data file,
    and if there it is replaced by any `q` which differs from it in a burst of up to 32 bits, CHECK
    of the key replies 0. -/
theorem C25_check_detects_burst {cfg : Option Mode} {u : Nat} {tr : List (NsEvent × Reply)}
    {br : Branches} {s : Store} (h : UserRun cfg u tr br s) {c : Ctx} (hc : c.u = u) {k p : Bytes}
    (hk : getSingle c br s k = .bulk p) (name : Bytes) (hname : name ≠ []) (hk0 : k ≠ [])
    (hk1 : k.length ≤ 255) (hz : c.conf.lock ≠ .frozen) :
    ∃ n pre post, s.dfiles[n]? = some (pre ++ (p ++ post)) ∧
      ∀ q, BurstDiff (bufferBits p) (bufferBits q) →
        cmdCheck c br { s with dfiles := s.dfiles.set n (pre ++ (q ++ post)) } [name, k] = .int 0 := by
  subst hc
  obtain ⟨G, hi, -, -⟩ := h.inv
  rw [getSingle_spec hi, absKV_get] at hk
  cases hg : liveGet G k with
  | none => rw [hg] at hk; simp [replyGet] at hk
  | some l =>
    rw [hg] at hk
    simp only [Option.map_some, replyGet, Reply.bulk.injEq, Loc.val] at hk
    have hrec := hi.get hg
    obtain ⟨prev, hp, pre, post, h1, h2⟩ := hrec.data
    have hfile : l.file < s.dfiles.length := (List.getElem?_eq_some_iff.1 h1).1
    refine ⟨l.file, pre ++ (encDHdr (recHdr prev l.r) ++ l.r.item.id), post, ?_, ?_⟩
    · rw [h1, hk]; simp
    · intro q hq
      have hlen := hq.length
      have hne := C25_burst_detected p q hq
      have hz' : (c.conf.lock == .frozen) = false := by simpa using hz
      have hix : indexGet br { s with dfiles := s.dfiles.set l.file (pre ++ (encDHdr (recHdr prev l.r) ++ l.r.item.id) ++ (q ++ post)) } c.u k = some (l.entry c.u) := by
        have hx := hi.indexGet k
        rw [hg] at hx
        simp only [Zdb.indexGet, hi.mode] at hx ⊢
        exact hx
      simp only [cmdCheck, readChecks, argsValidate, NsConf.isFrozen, hz']
      simp only [List.length_cons, List.length_nil, List.any_cons, List.any_nil, Bool.or_false]
      have e1 : (name.isEmpty || k.isEmpty) = false := by simp [hname, hk0]
      simp only [e1, Nat.not_lt.2 hk1]
      simp only [ne_eq, not_true_eq_false, if_false, Bool.false_eq_true, gt_iff_lt, Nat.not_lt.2 hk1, hix, Loc.entry]
      have h3 : dataCheck { s with dfiles := s.dfiles.set l.file (pre ++ (encDHdr (recHdr prev l.r) ++ l.r.item.id) ++ (q ++ post)) } l.r.item.offset l.file = 0 := by
        simp only [dataCheck, List.getElem?_set_self hfile]
        rw [readExact_at (a := pre) (b := encDHdr (recHdr prev l.r)) (c := l.r.item.id ++ (q ++ post))
          (by simp) h2.symm (by simp [dhdrLen])]
        simp only [decDHdr_encDHdr _ (recHdr_wf hrec hp)]
        rw [readExact_at (a := pre ++ (encDHdr (recHdr prev l.r) ++ l.r.item.id)) (b := q) (c := post)
          (by simp) (by simp [h2, dhdrLen, recHdr]; omega)
          (by simp only [recHdr]; rw [hrec.len, hk]; omega)]
        simp only [recHdr, hrec.crc, hk]
        rw [if_neg (fun he => hne he.symm)]
      rw [h3]

set_option maxRecDepth 100000 in
/-- A key and its CHECK. -/
example : (runCmds (fun _ => []) (freshStore .user)
    [(exCtx, .set, [str "SET", str "a", str "one"]), (exCtx, .check, [str "CHECK", str "a"])]).2.2 =
    [.bulk (str "a"), .int 1] := rfl

/-- C25 (6): CHECK replies 1 for every key that GET finds. -/
theorem C25_check_accepts_stored {cfg : Option Mode} {u : Nat} {tr : List (NsEvent × Reply)}
    {br : Branches} {s : Store} (h : UserRun cfg u tr br s) {c : Ctx} (hc : c.u = u) {k p : Bytes}
    (hk : getSingle c br s k = .bulk p) (name : Bytes) (hname : name ≠ []) (hk0 : k ≠ [])
    (hk1 : k.length ≤ 255) (hz : c.conf.lock ≠ .frozen) : cmdCheck c br s [name, k] = .int 1 := by
  subst hc
  obtain ⟨G, hi, -, -⟩ := h.inv
  rw [cmdCheck_spec hi name k hname]
  rw [getSingle_spec hi] at hk
  simp only [specRead, if_neg hk0, if_neg (Nat.not_lt.2 hk1), if_neg hz]
  cases hg : (absKV G).get k with
  | none => rw [hg] at hk; simp [replyGet] at hk
  | some v => rfl

/-- C48 (user mode): with a file size limit of at most 2 GiB, the offsets and lengths kept for a key (in
    memory and in the index file) fit in their 32-bit fields and point to its index item and to its
    payload. -/
theorem C48_offsets_exact_partial {cfg : Option Mode} {u : Nat} {tr : List (NsEvent × Reply)}
    {br : Branches} {s : Store} (h : UserRun cfg u tr br s) {c : Ctx} (hc : c.u = u) {k p : Bytes}
    (hk : getSingle c br s k = .bulk p) :
    ∃ e f g it, indexGet br s u k = some e ∧ e.offset < 2 ^ 32 ∧ e.idxoffset < 2 ^ 32 ∧ e.length = p.length ∧
      p.length < 2 ^ 32 ∧
      s.dfiles[e.dataid]? = some f ∧ readExact f (e.offset + dhdrLen + k.length) p.length = some p ∧
      s.ifiles[e.indexid]? = some g ∧ readExact g e.idxoffset (itemHdr + k.length) = some (encItem it) ∧
      it.id = k ∧ it.offset = e.offset ∧ it.length = p.length := by
  subst hc
  obtain ⟨G, hi, -, -⟩ := h.inv
  rw [getSingle_spec hi, absKV_get] at hk
  cases hg : liveGet G k with
  | none => rw [hg] at hk; simp [replyGet] at hk
  | some l =>
    rw [hg] at hk
    simp only [Option.map_some, replyGet, Reply.bulk.injEq, Loc.val] at hk
    have hrec := hi.get hg
    have hmem := live_mem (liveGet_some hg).1
    have hid : l.r.item.id = k := (liveGet_some hg).2
    have hwf := hrec.wf
    obtain ⟨f, prev, hp, h1, -, h3⟩ := hrec.readHdr
    obtain ⟨g, g1, g2⟩ := hi.readItem hmem
    have hx := hi.indexGet k
    rw [hg] at hx
    refine ⟨l.entry c.u, f, g, l.r.item, hx, ?_, hi.offs l hmem, ?_, ?_, h1, ?_, g1, ?_, hid, rfl, ?_⟩
    · have := hwf; simp only [Item.WF] at this; simp only [Loc.entry]; omega
    · simp only [Loc.entry]; rw [hrec.len, hk]
    · have := hwf; simp only [Item.WF] at this; rw [← hk, ← hrec.len]; omega
    · rw [← hk, ← hid]; exact h3
    · rw [← hid]; exact g2
    · rw [hrec.len, hk]

end Zdb
