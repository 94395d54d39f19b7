/-
C40: namespace descriptors (file `zdb-namespace` of each namespace).
-/
import Verif.Lemmas.Desc
import Verif.Lemmas.UserRun
namespace Zdb

/-- C40, namespace descriptors: the settings read back are those written, whatever the file contained before (it is
    overwritten from its start and not truncated).  Excepted: an empty password.  The lock is not stored. -/
theorem C40_descriptor_partial (r : NsRec) (hn : r.conf.name.length ≤ 255)
    (hp : ∀ p, r.conf.password = some p → p ≠ [] ∧ p.length ≤ 255 ∧ (0 : UInt8) ∉ p) (hm : r.conf.maxsize < 2 ^ 64) :
    (loadDesc r.conf.name (commitNs r).desc).map (·.1) = some { r.conf with lock := .unlocked } := by
  obtain ⟨tail, ht⟩ := commitNs_desc r
  rw [ht, loadDesc_enc _ _ _ (by omega) (by
    cases hq : r.conf.password with
    | none => simp
    | some p => have := (hp p hq).2.1; rw [Option.getD_some]; omega)]
  have hpw : loadedPass (r.conf.password.getD []) = r.conf.password := by
    cases hq : r.conf.password with
    | none => rfl
    | some p =>
      obtain ⟨h1, -, h3⟩ := hp p hq
      unfold loadedPass
      rw [Option.getD_some, if_neg h1, cstr_eq h3]
  simp only [Option.map_some, loadedConf, hpw, Nat.mod_eq_of_lt hm, defaultConf]

/-- C40: distinct settings have distinct descriptors. -/
theorem C40_descriptor_injective_partial (a b : NsConf) (ha : a.name.length ≤ 255) (hb : b.name.length ≤ 255)
    (hpa : ∀ p, a.password = some p → p ≠ [] ∧ p.length ≤ 255) (hpb : ∀ p, b.password = some p → p ≠ [] ∧ p.length ≤ 255)
    (hma : a.maxsize < 2 ^ 64) (hmb : b.maxsize < 2 ^ 64) (x y : Bytes) (h : encDesc a ++ x = encDesc b ++ y) :
    { a with lock := b.lock } = b ∧ x = y := by
  have hla : ∀ p, a.password = some p → (a.password.getD []).length % 256 = p.length := by
    intro p hp; rw [hp, Option.getD_some, Nat.mod_eq_of_lt (by have := (hpa p hp).2; omega)]
  have hga : (a.password.getD []).length < 256 := by
    cases hq : a.password with
    | none => simp
    | some p => have := (hpa p hq).2; rw [Option.getD_some]; omega
  have hgb : (b.password.getD []).length < 256 := by
    cases hq : b.password with
    | none => simp
    | some p => have := (hpb p hq).2; rw [Option.getD_some]; omega
  rw [encDesc_head, encDesc_head, Nat.mod_eq_of_lt hga, Nat.mod_eq_of_lt hgb, Nat.mod_eq_of_lt (by omega), Nat.mod_eq_of_lt (by omega),
    List.take_length, List.take_length, List.take_length, List.take_length] at h
  simp only [List.append_assoc] at h
  have hh := congrArg decDescHeader h
  rw [decDescHeader_enc, decDescHeader_enc] at hh
  simp only [headOf, DescHeader.mk.injEq] at hh
  obtain ⟨-, h2, h3, h4, h5⟩ := hh
  rw [Nat.mod_eq_of_lt (by omega), Nat.mod_eq_of_lt (by omega)] at h2
  rw [Nat.mod_eq_of_lt hga, Nat.mod_eq_of_lt hgb] at h3
  rw [Nat.mod_eq_of_lt hma, Nat.mod_eq_of_lt hmb] at h4
  obtain ⟨-, h6⟩ := List.append_inj h (by simp)
  obtain ⟨e1, h7⟩ := List.append_inj h6 h2
  obtain ⟨e2, e3⟩ := List.append_inj h7 h3
  have e4 : a.password = b.password := by
    cases hqa : a.password with
    | none =>
      cases hqb : b.password with
      | none => rfl
      | some q => rw [hqa, hqb] at e2; exact absurd e2.symm (hpb q hqb).1
    | some p =>
      cases hqb : b.password with
      | none => rw [hqa, hqb] at e2; exact absurd e2 (hpa p hqa).1
      | some q => rw [hqa, hqb] at e2; exact congrArg some e2
  have e5 : a.isPublic = b.isPublic ∧ a.worm = b.worm := by
    revert h5
    cases a.isPublic <;> cases b.isPublic <;> cases a.worm <;> cases b.worm <;> simp
  refine ⟨?_, e3⟩
  obtain ⟨an, ap, apu, aw, am, al⟩ := a
  obtain ⟨bn, bp, bpu, bw, bm, bl⟩ := b
  simp only at e1 e4 h4 e5
  obtain ⟨e5, e6⟩ := e5
  subst e1 e4 h4 e5 e6
  rfl

/-- C40 is false for an empty password: its descriptor is the one of a namespace without password. -/
theorem C40_descriptor_refuted : ∃ a b : NsConf, encDesc a = encDesc b ∧ a.password = some [] ∧ b.password = none :=
  ⟨{ defaultConf [102] with password := some [] }, defaultConf [102], rfl, rfl, rfl⟩

/-- A concrete case: a longer descriptor was there before. -/
theorem C40_descriptor_example :
    loadDesc [102] (commitNs
      { uid := 1, conf := { defaultConf [102] with password := some [112], maxsize := 77, worm := true },
        store := freshStore .user, desc := encDesc { defaultConf [102] with password := some [97, 98, 99] } }).desc =
    some ({ defaultConf [102] with password := some [112], maxsize := 77, worm := true },
      [1, 0, 0, 0, 1, 1, 77, 0, 0, 0, 0, 0, 0, 0, 7, 102, 112, 98, 99]) := by decide +kernel

end Zdb
