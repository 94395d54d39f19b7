/-
When dataset commands are refused.
-/
import Verif.Model.Engine
namespace Zdb

theorem argsValidate_err' {argv : List Bytes} {k : Nat} {x : Reply} (h : argsValidate argv k = some x) : ∃ s, x = .err s := by
  unfold argsValidate at h
  split at h
  · injection h with h; exact ⟨_, h.symm⟩
  · split at h
    · injection h with h; exact ⟨_, h.symm⟩
    · exact absurd h (by simp)

/-- A client that cannot write, or a locked namespace. -/
def NoWrite (c : Ctx) : Prop := c.writable = false ∨ c.conf.lock ≠ .unlocked

theorem set_body_nowrite (c : Ctx) (argv : List Bytes) (h : NoWrite c) (k p : Bytes) :
    ∃ msg, ∀ br s, cmdSet.body c br s argv k p = (br, s, .err msg) := by
  unfold cmdSet.body
  by_cases h1 : k.length > 255
  · exact ⟨_, fun br s => by rw [if_pos h1]⟩
  · by_cases h2 : c.writable = true
    · rcases h with h | h
      · rw [h2] at h; exact absurd h (by simp)
      · by_cases h3 : c.conf.isFrozen = true
        · exact ⟨_, fun br s => by rw [if_neg h1, if_neg (by simp [h2]), if_pos h3]; rfl⟩
        · have h4 : c.conf.isLocked = true := by simpa [NsConf.isLocked] using h
          exact ⟨_, fun br s => by rw [if_neg h1, if_neg (by simp [h2]), if_neg h3, if_pos h4]; rfl⟩
    · exact ⟨_, fun br s => by rw [if_neg h1, if_pos (by simp [h2])]; rfl⟩

theorem del_body_nowrite (c : Ctx) (argv : List Bytes) (h : NoWrite c) (k : Bytes) :
    ∃ msg, ∀ br s, cmdDel.body c br s argv k = (br, s, .err msg) := by
  unfold cmdDel.body
  by_cases h1 : k.length > 255
  · exact ⟨_, fun br s => by rw [if_pos h1]⟩
  · by_cases h2 : c.writable = true
    · rcases h with h | h
      · rw [h2] at h; exact absurd h (by simp)
      · by_cases h3 : c.conf.isFrozen = true
        · exact ⟨_, fun br s => by rw [if_neg h1, if_neg (by simp [h2]), if_pos h3]; rfl⟩
        · have h4 : c.conf.isLocked = true := by simpa [NsConf.isLocked] using h
          exact ⟨_, fun br s => by rw [if_neg h1, if_neg (by simp [h2]), if_neg h3, if_pos h4]; rfl⟩
    · exact ⟨_, fun br s => by rw [if_neg h1, if_pos (by simp [h2])]; rfl⟩

theorem set_nowrite (c : Ctx) (argv : List Bytes) (h : NoWrite c) :
    ∃ msg, ∀ br s, cmdSet c br s argv = (br, s, .err msg) := by
  unfold cmdSet
  split
  · exact set_body_nowrite c _ h _ _
  · by_cases ha : c.admin = true
    · simp only [ha, if_true]
      exact set_body_nowrite c _ h _ _
    · exact ⟨_, fun br s => by rw [if_neg ha]; rfl⟩
  · exact ⟨_, fun br s => rfl⟩

theorem del_nowrite (c : Ctx) (argv : List Bytes) (h : NoWrite c) :
    ∃ msg, ∀ br s, cmdDel c br s argv = (br, s, .err msg) := by
  unfold cmdDel
  split
  · by_cases ha : c.admin = true
    · simp only [ha, if_true]
      exact del_body_nowrite c _ h _
    · exact ⟨_, fun br s => by rw [if_neg ha]; rfl⟩
  · cases hv : argsValidate argv 2 with
    | some x => obtain ⟨m, rfl⟩ := argsValidate_err' hv; exact ⟨m, fun br s => rfl⟩
    | none =>
      simp only
      split
      · exact del_body_nowrite c _ h _
      · exact ⟨_, fun br s => rfl⟩

theorem readChecks_frozen (c : Ctx) (argv : List Bytes) (h : c.conf.lock = .frozen) :
    ∃ msg, ∀ k, readChecks c argv k = .err msg := by
  unfold readChecks
  cases hv : argsValidate argv 2 with
  | some x => obtain ⟨m, rfl⟩ := argsValidate_err' hv; exact ⟨m, fun k => rfl⟩
  | none =>
    simp only
    have hf : c.conf.isFrozen = true := by simp [NsConf.isFrozen, h]
    split
    · rename_i key
      by_cases hk : key.length > 255
      · exact ⟨_, fun k => by rw [if_pos hk]⟩
      · exact ⟨_, fun k => by rw [if_neg hk, if_pos hf]; rfl⟩
    · exact ⟨_, fun k => rfl⟩

/-- Commands the check for a frozen namespace is made for. -/
def DsCmd.frozenChecked : DsCmd → Bool
  | .set | .del | .get | .mget | .exists | .check | .length | .keytime | .scan | .rscan | .keycur | .history => true
  | _ => false

theorem ds_frozen (c : Ctx) (d : DsCmd) (argv : List Bytes) (h : c.conf.lock = .frozen) (hd : d.frozenChecked = true) :
    ∃ msg, ∀ br s, dsCommand c br s d argv = (br, s, .err msg) := by
  have hf : c.conf.isFrozen = true := by simp [NsConf.isFrozen, h]
  have hn : NoWrite c := Or.inr (by rw [h]; simp)
  have hread : ∀ (f : Branches → Store → Bytes → Reply), ∃ msg, ∀ br s, readChecks c argv (f br s) = .err msg := by
    intro f
    obtain ⟨m, hm⟩ := readChecks_frozen c argv h
    exact ⟨m, fun br s => hm _⟩
  have wrap : ∀ (g : Branches → Store → Reply), (∃ msg, ∀ br s, g br s = .err msg) →
      ∃ msg, ∀ br s, (br, s, g br s) = ((br, s, .err msg) : Branches × Store × Reply) := by
    rintro g ⟨m, hm⟩; exact ⟨m, fun br s => by rw [hm]⟩
  cases d with
  | set => exact set_nowrite c argv hn
  | del => exact del_nowrite c argv hn
  | get => exact wrap _ (hread _)
  | «exists» => exact wrap _ (hread _)
  | check => exact wrap _ (hread _)
  | length => exact wrap _ (hread _)
  | keytime => exact wrap _ (hread _)
  | mget =>
    apply wrap
    unfold cmdMget
    split
    · rename_i k ks
      by_cases hk : (k :: ks).any (fun k => decide (k.length > 255)) = true
      · exact ⟨_, fun br s => by rw [if_pos hk]⟩
      · exact ⟨_, fun br s => by rw [if_neg hk, if_pos hf]; rfl⟩
    · exact ⟨_, fun br s => rfl⟩
  | scan => apply wrap; exact ⟨_, fun br s => by unfold cmdScan scanWith; rw [if_pos hf]; rfl⟩
  | rscan => apply wrap; exact ⟨_, fun br s => by unfold cmdRscan scanWith; rw [if_pos hf]; rfl⟩
  | keycur =>
    apply wrap
    unfold cmdKeycur
    cases hv : argsValidate argv 2 with
    | some x => obtain ⟨m, rfl⟩ := argsValidate_err' hv; exact ⟨m, fun br s => rfl⟩
    | none => exact ⟨_, fun br s => by simp only; rw [if_pos hf]; rfl⟩
  | history =>
    apply wrap
    unfold cmdHistory
    split
    · exact ⟨_, fun br s => by rw [if_pos hf]; rfl⟩
    · exact ⟨_, fun br s => by rw [if_pos hf]; rfl⟩
    · exact ⟨_, fun br s => rfl⟩
  | _ => simp [DsCmd.frozenChecked] at hd

/-- Commands that need an administrator. -/
def adminOnly (d : DsCmd) (argv : List Bytes) : Bool :=
  match d with
  | .nsjump | .index | .data => true
  | .set => argv.length == 4
  | .del => argv.length == 3
  | _ => false

theorem ds_denied (c : Ctx) (d : DsCmd) (argv : List Bytes) (h : c.admin = false) (hd : adminOnly d argv = true) :
    ∀ br s, dsCommand c br s d argv = (br, s, .err "Permission denied") := by
  intro br s
  cases d with
  | nsjump => simp [dsCommand, cmdNsjump, h, errDenied]
  | index => simp [dsCommand, cmdIndex, replyIndex, subcommand, h, errDenied]
  | data => simp [dsCommand, cmdData, subcommand, h, errDenied]
  | set =>
    match argv, hd with
    | [_, _, _, _], _ => simp [dsCommand, cmdSet, h, errDenied]
  | del =>
    match argv, hd with
    | [_, _, _], _ => simp [dsCommand, cmdDel, h, errDenied]
  | _ => simp [adminOnly] at hd

end Zdb
