/-
C69 in sequential mode: data files that are lost, cut or corrupted.
-/
import Verif.Props.Loss
import Verif.Props.SeqRebuild
import Verif.Lemmas.ReplyEq
namespace Zdb

/-- The data files but the current one have any contents, an empty one stands for a missing one (see `LossEvent`). -/
structure Damage (s : Store) (fs : List Bytes) : Prop where
  len : fs.length = s.dfiles.length
  cur : ∀ i, s.dataid ≤ i → fs[i]? = s.dfiles[i]?

/-- What clients find then: the running process, or the one started on these files. -/
def AfterDamage (cfg : Option Mode) (u : Nat) (br : Branches) (s : Store) (fs : List Bytes) (b : Branches) (t : Store) : Prop :=
  (b = br ∧ t = { s with dfiles := fs }) ∨
  ((s.indexid = 0 ∨ 29 < fileLen s.ifiles s.indexid) ∧ reloadNs cfg br u { s with dfiles := fs } = .ok b t)

theorem reload_damaged {cfg : Option Mode} {u : Nat} {br : Branches} {s : Store} {G : Log} (h : SInv s G)
    (hcfg : cfg = none ∨ cfg = some .seq) (hcap : G.length < 2 ^ 32) {fs : List Bytes} (hd : Damage s fs)
    (hlast : s.indexid = 0 ∨ 29 < fileLen s.ifiles s.indexid) :
    ∃ s0 : Store, SInv s0 G ∧ s0.dfiles = s.dfiles ∧ reloadNs cfg br u { s with dfiles := fs } = .ok br { s0 with dfiles := fs } := by
  have hlast' : G.length = 1 ∨ 29 < logEnd G := by
    rcases hlast with hcl | hcl
    · left; have := h.iid; omega
    · right; rw [h.fileLen] at hcl; exact hcl
  obtain ⟨t0, k1, k2, k3, k4, -⟩ := h.reload br u cfg hcfg hcap hlast'
  have hdid : t0.dataid = s.dataid := by
    have a1 := k2.iid; have a2 := k2.did; have a3 := h.iid; have a4 := h.did; omega
  have hsl : s.dataid < s.dfiles.length := by have a3 := h.iid; have a4 := h.did; have := h.dlen; omega
  have htl : (s.dfiles.take s.dataid).length = s.dataid := by simp; omega
  have hfl : (fs.take s.dataid).length = s.dataid := by have := hd.len; simp; omega
  have hdrop : fs.drop s.dataid = s.dfiles.drop s.dataid := by
    apply List.ext_getElem?
    intro i
    rw [List.getElem?_drop, List.getElem?_drop, hd.cur _ (by omega)]
  have hgh : ({ s with dfiles := fs } : Store).gh (s.dfiles.take s.dataid) = s := by
    have : s.dfiles.take s.dataid ++ fs.drop (s.dfiles.take s.dataid).length = s.dfiles := by
      rw [htl, hdrop, List.take_append_drop]
    show ({ s with dfiles := s.dfiles.take s.dataid ++ fs.drop (s.dfiles.take s.dataid).length } : Store) = s
    rw [this]
  rw [← hgh] at k1
  obtain ⟨t', j1, j2⟩ := reloadNs_gh k1 (by rw [htl, hdid]; exact Nat.le_refl _)
    (by show (s.dfiles.take s.dataid).length ≤ fs.length; have := hd.len; omega)
  have hdt : t'.dataid = s.dataid := by rw [j2] at hdid; exact hdid
  have e1 : t'.dfiles.drop s.dataid = s.dfiles.drop s.dataid := by
    have k4' : s.dfiles.take s.dataid ++ t'.dfiles.drop (s.dfiles.take s.dataid).length = s.dfiles := by
      have := congrArg Store.dfiles j2
      rw [k4] at this
      exact this.symm
    rw [htl] at k4'
    have := congrArg (List.drop s.dataid) k4'
    rwa [List.drop_left' htl] at this
  have e2 : t'.dfiles.take s.dataid = fs.take s.dataid := by
    have h1' := j1
    rw [← gh_self { s with dfiles := fs } s.dataid (by show s.dataid ≤ fs.length; have := hd.len; omega)] at h1'
    obtain ⟨t'', i1, i2⟩ := reloadNs_gh h1'
      (by show (fs.take s.dataid).length ≤ _; rw [hfl, hdt]; exact Nat.le_refl _)
      (by show (fs.take s.dataid).length ≤ fs.length; have := hd.len; omega)
    rw [j1] at i1
    injection i1 with i0 i1
    subst i1
    have : t'.dfiles = fs.take s.dataid ++ t'.dfiles.drop (fs.take s.dataid).length := congrArg Store.dfiles i2
    rw [this, List.take_left' hfl]
  have e3 : t'.dfiles = fs := by
    rw [← List.take_append_drop s.dataid t'.dfiles, e1, e2, ← hdrop, List.take_append_drop]
  refine ⟨t0, k2, k4, ?_⟩
  rw [j1]
  congr 1
  rw [j2, ← e3]
  rfl

theorem SeqRun.files_lt {cfg : Option Mode} {u : Nat} {tr : List (NsEvent × Reply)} {br : Branches} {s : Store}
    (h : SeqRun cfg u tr br s) : s.ifiles.length < 2 ^ 32 := by
  obtain ⟨b, h1⟩ := h.fresh
  have hlen := h.len
  unfold maxEvents at hlen
  have := h1.files h.hcfg freshStore_sinv h.ev h.near (by
    constructor
    · simp [freshStore]; omega
    · simp [freshStore, totalData]; omega)
  simp [freshStore] at this
  omega

/-- The state found is one of the log `G` with other data files. -/
theorem SeqRun.damaged {cfg : Option Mode} {u : Nat} {tr : List (NsEvent × Reply)} {br : Branches} {s : Store}
    (h : SeqRun cfg u tr br s) {G : Log} (hG : SInv s G) {fs : List Bytes} (hd : Damage s fs) {b : Branches} {t : Store}
    (ht : AfterDamage cfg u br s fs b t) : ∃ s0 : Store, SInv s0 G ∧ t = { s0 with dfiles := fs } := by
  rcases ht with ⟨rfl, rfl⟩ | ⟨hl, hr⟩
  · exact ⟨s, hG, rfl⟩
  · obtain ⟨s0, h1, -, h3⟩ := reload_damaged (u := u) (br := br) hG h.hcfg (by rw [← hG.irep.length]; exact h.files_lt) hd hl
    rw [hr] at h3
    injection h3 with h3 h4
    exact ⟨s0, h1, h4⟩

/-- **C69**, sequential mode: a process can be started on the damaged files. -/
theorem C69_seq_start_partial {cfg : Option Mode} {u : Nat} {tr : List (NsEvent × Reply)} {br : Branches} {s : Store}
    (h : SeqRun cfg u tr br s) (hl : s.indexid = 0 ∨ 29 < fileLen s.ifiles s.indexid) {fs : List Bytes} (hd : Damage s fs) :
    ∃ b t, reloadNs cfg br u { s with dfiles := fs } = .ok b t := by
  obtain ⟨G, hG, -, -⟩ := h.inv
  obtain ⟨s0, -, -, h3⟩ := reload_damaged (u := u) (br := br) hG h.hcfg (by rw [← hG.irep.length]; exact h.files_lt) hd hl
  exact ⟨_, _, h3⟩

theorem readChecks_near {c : Ctx} {name k : Bytes} (hn : name ≠ []) (hk : k.length = 8) (hf : c.conf.lock ≠ .frozen)
    (g : Bytes → Reply) : readChecks c [name, k] g = g k := by
  have hl' : ¬ 255 < k.length := by omega
  have h0 : k ≠ [] := by intro h; rw [h] at hk; simp at hk
  simp [readChecks, argsValidate, hn, h0, hl', NsConf.isFrozen, hf]

/-- **C69**, sequential mode, what the index holds: no damage to the data files changes which ids there are, nor the lengths and
    times of their values. -/
theorem C69_seq_index_partial {cfg : Option Mode} {u : Nat} {tr : List (NsEvent × Reply)} {br : Branches} {s : Store}
    (h : SeqRun cfg u tr br s) {fs : List Bytes} (hd : Damage s fs) {b : Branches} {t : Store} (ht : AfterDamage cfg u br s fs b t)
    {k : Bytes} (hk : k.length = 8) (hnear : NearKey (specSeqRun [] (tr.map (·.1))) k) (c : Ctx) {name : Bytes} (hn : name ≠ [])
    (hf : c.conf.lock ≠ .frozen) :
    cmdExists c b t [name, k] = existsReply (((specSeqRun [] (tr.map (·.1))).get k).map Val.payload) ∧
    cmdLength c b t [name, k] = lengthReply (((specSeqRun [] (tr.map (·.1))).get k).map Val.payload) := by
  obtain ⟨G, hG0, habs, -⟩ := h.inv
  obtain ⟨s0, hG, rfl⟩ := h.damaged hG0 hd ht
  rw [← habs] at hnear ⊢
  have hi : indexGet b { s0 with dfiles := fs } c.u k = (slotGet G k).map (Loc.sentry c.u) := hG.indexGet c.u k (near_iff.1 hnear)
  unfold cmdExists cmdLength
  rw [readChecks_near hn hk hf, readChecks_near hn hk hf, hi, absSlots_get]
  cases hg : slotGet G k with
  | none => exact ⟨rfl, rfl⟩
  | some l =>
    refine ⟨rfl, ?_⟩
    simp only [Option.map_some, Loc.sentry, Loc.entry, Loc.val, (hG.getRec hg).len]
    rfl

/-- **C69**, sequential mode, exactly what is read: the record of an id is at a place of a data file; whatever happens to the
    files, GET answers the bytes that are then where the payload was, and an error if the file ends before.  If the record is still
    there, CHECK answers 1.  If the file was cut, GET answers the payload or an error, and CHECK 1 or -1, depending on whether the
    record is still whole.  Missing: empty payloads, and commands that change the namespace after the damage. -/
theorem C69_seq_place_partial {cfg : Option Mode} {u : Nat} {tr : List (NsEvent × Reply)} {br : Branches} {s : Store}
    (h : SeqRun cfg u tr br s) {k : Bytes} {v : Val} (hk : (specSeqRun [] (tr.map (·.1))).get k = some v) (hp : v.payload ≠ []) :
    ∃ (j prev : Nat) (pre post : Bytes),
      s.dfiles[j]? = some (pre ++ ((encDHdr ⟨8, v.payload.length, prev, crc32 v.payload, 0, v.time⟩ ++ (k ++ v.payload)) ++ post)) ∧
      ∀ (fs : List Bytes), Damage s fs → ∀ (b : Branches) (t : Store), AfterDamage cfg u br s fs b t →
      ∀ f, fs[j]? = some f → ∀ (c : Ctx) (name : Bytes), name ≠ [] → c.conf.lock ≠ .frozen →
        cmdGet c b t [name, k] = foundReply (bytesAt f (pre.length + 26) v.payload.length) ∧
        (bytesAt f pre.length (26 + v.payload.length) =
            some (encDHdr ⟨8, v.payload.length, prev, crc32 v.payload, 0, v.time⟩ ++ (k ++ v.payload)) →
          cmdGet c b t [name, k] = .bulk v.payload ∧ cmdCheck c b t [name, k] = .int 1) ∧
        (f <+: pre ++ ((encDHdr ⟨8, v.payload.length, prev, crc32 v.payload, 0, v.time⟩ ++ (k ++ v.payload)) ++ post) →
          cmdGet c b t [name, k] =
            (if pre.length + 26 + v.payload.length ≤ f.length then .bulk v.payload else .err "Internal Error") ∧
          cmdCheck c b t [name, k] = .int (if pre.length + 26 + v.payload.length ≤ f.length then 1 else -1)) := by
  obtain ⟨G, hG, habs, -⟩ := h.inv
  rw [← habs, absSlots_get, Option.map_eq_some_iff] at hk
  obtain ⟨l, hl, rfl⟩ := hk
  obtain ⟨h8, hpos, hmem, hlive, hid, hlt⟩ := hG.slot hl
  have hr := hG.getRec hl
  obtain ⟨prev, hprev, pre, post, e1, e2⟩ := hr.data
  have hpl : 0 < l.r.payload.length := List.length_pos_iff.2 hp
  have hid' : l.r.item.id = k := hid
  have hlen := hr.len
  have hcrc := hr.crc
  have hwf := recHdr_wf hr hprev
  have hrec : encDHdr (recHdr prev l.r) = encDHdr ⟨8, l.r.payload.length, prev, crc32 l.r.payload, 0, l.r.item.timestamp⟩ := by
    simp only [recHdr, hid', h8, hlen, hcrc]
  have hdec : decDHdr (encDHdr ⟨8, l.r.payload.length, prev, crc32 l.r.payload, 0, l.r.item.timestamp⟩) =
      ⟨8, l.r.payload.length, prev, crc32 l.r.payload, 0, l.r.item.timestamp⟩ := by
    have := decDHdr_encDHdr _ hwf
    simpa only [recHdr, hid', h8, hlen, hcrc] using this
  have e1' : s.dfiles[l.r.item.dataid]? =
      some (pre ++ ((encDHdr ⟨8, l.r.payload.length, prev, crc32 l.r.payload, 0, l.r.item.timestamp⟩ ++ (k ++ l.r.payload)) ++ post)) := by
    rw [e1, ← hrec, ← hid']
  refine ⟨l.r.item.dataid, prev, pre, post, e1', ?_⟩
  intro fs hd b t ht f hf c name hn hfz
  obtain ⟨s0, hG', rfl⟩ := h.damaged hG hd ht
  have hi : indexGet b { s0 with dfiles := fs } c.u k = some (l.sentry c.u) := by
    have : indexGet b { s0 with dfiles := fs } c.u k = (slotGet G k).map (Loc.sentry c.u) :=
      hG'.indexGet c.u k (fun _ => Or.inl hlt)
    rw [this, hl]; rfl
  have hget : cmdGet c b { s0 with dfiles := fs } [name, k] = foundReply (bytesAt f (pre.length + 26) l.r.payload.length) := by
    unfold cmdGet
    rw [readChecks_near hn h8 hfz, getSingle, hi]
    have e3 : ¬ l.r.item.length = 0 := by omega
    have e4 : l.r.item.id.length = 8 := by rw [hid']; exact h8
    simp only [Loc.sentry, Loc.entry, dataGet, hf, e3, if_false, e4, ← e2, dhdrLen]
    rw [show pre.length + 18 + 8 = pre.length + 26 by omega, hlen, bytesAt_eq _ _ _ hpl]
    cases bytesAt f (pre.length + 26) l.r.payload.length <;> rfl
  have hchk : cmdCheck c b { s0 with dfiles := fs } [name, k] = .int (dataCheck { s0 with dfiles := fs } pre.length l.r.item.dataid) := by
    unfold cmdCheck
    rw [readChecks_near hn h8 hfz, hi]
    simp only [Loc.sentry, Loc.entry, e2]
  have hwhole : ∀ {f : Bytes}, bytesAt f pre.length (26 + l.r.payload.length) =
        some (encDHdr ⟨8, l.r.payload.length, prev, crc32 l.r.payload, 0, l.r.item.timestamp⟩ ++ (k ++ l.r.payload)) →
      bytesAt f (pre.length + 26) l.r.payload.length = some l.r.payload ∧
      readExact f pre.length dhdrLen = some (encDHdr ⟨8, l.r.payload.length, prev, crc32 l.r.payload, 0, l.r.item.timestamp⟩) := by
    intro f hb
    unfold bytesAt at hb
    split at hb
    case isFalse => simp at hb
    case isTrue hle =>
    rw [Option.some.injEq] at hb
    have hfe : f = f.take pre.length ++ ((encDHdr ⟨8, l.r.payload.length, prev, crc32 l.r.payload, 0, l.r.item.timestamp⟩ ++ (k ++ l.r.payload)) ++
        (f.drop pre.length).drop (26 + l.r.payload.length)) := by
      rw [← hb, List.take_append_drop, List.take_append_drop]
    have htl : (f.take pre.length).length = pre.length := by simp; omega
    refine ⟨?_, ?_⟩
    · rw [← bytesAt_eq _ _ _ hpl]
      apply readExact_at (a := f.take pre.length ++ (encDHdr ⟨8, l.r.payload.length, prev, crc32 l.r.payload, 0, l.r.item.timestamp⟩ ++ k))
        (c := (f.drop pre.length).drop (26 + l.r.payload.length))
      · rw [List.append_assoc, List.append_assoc, ← List.append_assoc k, ← List.append_assoc (encDHdr _), ← List.append_assoc (encDHdr _)]
        rw [List.append_assoc (encDHdr _) k]
        exact hfe
      · simp only [List.length_append, encDHdr_len, htl, h8]
      · rfl
    · apply readExact_at (a := f.take pre.length) (c := (k ++ l.r.payload) ++ (f.drop pre.length).drop (26 + l.r.payload.length))
      · rw [← List.append_assoc (encDHdr _)]; exact hfe
      · exact htl.symm
      · simp [encDHdr_len, dhdrLen]
  have hck : ∀ b26, bytesAt f pre.length (26 + l.r.payload.length) = some b26 →
      b26 = encDHdr ⟨8, l.r.payload.length, prev, crc32 l.r.payload, 0, l.r.item.timestamp⟩ ++ (k ++ l.r.payload) →
      cmdGet c b { s0 with dfiles := fs } [name, k] = .bulk l.r.payload ∧ cmdCheck c b { s0 with dfiles := fs } [name, k] = .int 1 := by
    intro b26 hb e
    subst e
    obtain ⟨w1, w2⟩ := hwhole hb
    refine ⟨by rw [hget, w1]; rfl, ?_⟩
    rw [hchk]
    simp only [dataCheck, hf, w2, hdec]
    rw [show pre.length + dhdrLen + 8 = pre.length + 26 from rfl, bytesAt_eq _ _ _ hpl, w1]
    simp
  refine ⟨hget, fun hb => hck _ hb rfl, ?_⟩
  · intro hcut
    obtain ⟨x, hx⟩ := hcut
    have hx : f ++ x = pre ++ ((encDHdr ⟨8, l.r.payload.length, prev, crc32 l.r.payload, 0, l.r.item.timestamp⟩ ++ (k ++ l.r.payload)) ++ post) := hx
    have hlenx := congrArg List.length hx
    simp only [List.length_append, encDHdr_len, h8] at hlenx
    have hv : (l.val (locs G)).payload = l.r.payload := rfl
    simp only [hv]
    by_cases hst : pre.length + 26 + l.r.payload.length ≤ f.length
    · simp only [if_pos hst]
      apply hck _ _ rfl
      unfold bytesAt
      rw [if_pos (by omega)]
      have h1 : ((f ++ x).drop pre.length).take (26 + l.r.payload.length) =
          encDHdr ⟨8, l.r.payload.length, prev, crc32 l.r.payload, 0, l.r.item.timestamp⟩ ++ (k ++ l.r.payload) := by
        rw [hx, List.drop_left' rfl]
        apply List.take_left'
        simp only [List.length_append, encDHdr_len, h8]; omega
      rw [List.drop_append_of_le_length (by omega), List.take_append_of_le_length (by simp; omega)] at h1
      rw [h1]
    · simp only [if_neg hst]
      refine ⟨?_, ?_⟩
      · rw [hget]
        unfold bytesAt
        rw [if_neg (by omega)]; rfl
      · rw [hchk]
        simp only [dataCheck, hf]
        by_cases hh : pre.length + 18 ≤ f.length
        · have h2 : readExact f pre.length dhdrLen = some (encDHdr ⟨8, l.r.payload.length, prev, crc32 l.r.payload, 0, l.r.item.timestamp⟩) := by
            have h3 : readExact (f ++ x) pre.length dhdrLen = some (encDHdr ⟨8, l.r.payload.length, prev, crc32 l.r.payload, 0, l.r.item.timestamp⟩) :=
              readExact_at (a := pre) (c := (k ++ l.r.payload) ++ post) (by rw [hx]; simp) rfl (by simp [encDHdr_len, dhdrLen])
            rwa [readExact_append_left (by simp only [dhdrLen]; omega)] at h3
          simp only [h2, hdec]
          rw [readExact_eq_none hpl (by simp only [dhdrLen]; omega)]
        · rw [readExact_eq_none (by simp [dhdrLen]) (by simp only [dhdrLen]; omega)]

/-! ### example -/

/-- The second data file of `exSeqCmds` is the current one; the first one holds ids 0 and 1, of which 0 is overwritten later. -/
def exSeqLoss : List (Ctx × DsCmd × List Bytes) :=
  [(exCtx, .set, [str "SET", [], str "one"]), (exCtx, .set, [str "SET", [], str "two"]), (exCtx, .nsjump, [str "NSJUMP"]),
   (exCtx, .set, [str "SET", [], str "three"]), (exCtx, .set, [str "SET", toLE 8 0, str "uno"])]

/-- The first data file loses its last three bytes, then a process is started on the files. -/
def exSeqCut : LoadRes :=
  let x := runCmds (fun _ => []) (freshStore .seq) exSeqLoss
  reloadNs (some .seq) x.1 7 { x.2.1 with dfiles := x.2.1.dfiles.modify 0 (fun f => f.take (f.length - 3)) }

def exSeqReads (d : DsCmd) (name : String) : List (Option Reply) :=
  [0, 1, 2].map fun i =>
    match exSeqCut with
    | .ok br s => some (dsCommand exCtx br s d [str name, toLE 8 i]).2.2
    | _ => none

theorem exSeqLoss_run : SeqRun (some .seq) 7 (traceOf (fun _ => []) (freshStore .seq) exSeqLoss)
    (runCmds (fun _ => []) (freshStore .seq) exSeqLoss).1 (runCmds (fun _ => []) (freshStore .seq) exSeqLoss).2.1 := by
  have hall : exSeqLoss.all okCmd = true := by decide
  have hok := fun x hx => okCmd_ok (List.all_eq_true.1 hall x hx)
  exact seqRun_of_cmds exSeqLoss (fun x hx => (hok x hx).1) (fun x hx => (hok x hx).2.1) (fun x hx => (hok x hx).2.2) (by decide)
    (by decide +kernel) (by decide +kernel)

/-- What is read then: only id 1 is lost, and this is told. -/
theorem C69_seq_example :
    exSeqReads .get "GET" = [some (.bulk (str "uno")), some (.err "Internal Error"), some (.bulk (str "three"))] ∧
    exSeqReads .check "CHECK" = [some (.int 1), some (.int (-1)), some (.int 1)] ∧
    exSeqReads .length "LENGTH" = [some (.int 3), some (.int 3), some (.int 5)] := by
  decide +kernel

end Zdb
