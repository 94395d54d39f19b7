/-
C60: requests that are refused because of the rights of the client or the state of the namespace look nothing up.
-/
import Verif.Lemmas.Overrun
import Verif.Lemmas.Refusal
import Verif.Props.FarIds
namespace Zdb

theorem lookedUp_frozen {c : Ctx} {d : DsCmd} (hd : d.frozenChecked = true) (h : c.conf.lock = .frozen) (argv : List Bytes) :
    lookedUp c d argv = [] := by
  have hf : c.conf.isFrozen = true := by simp [NsConf.isFrozen, h]
  cases d <;> simp only [DsCmd.frozenChecked, Bool.false_eq_true] at hd <;> simp only [lookedUp, hf]
  all_goals repeat' split
  all_goals simp_all

theorem lookedUp_nowrite {c : Ctx} {d : DsCmd} (hd : d = .set ∨ d = .del) (h : NoWrite c) (argv : List Bytes) :
    lookedUp c d argv = [] := by
  have hf : c.writable = false ∨ c.conf.isLocked = true := h.imp id (fun h => by simpa [NsConf.isLocked] using h)
  rcases hd with rfl | rfl <;> simp only [lookedUp]
  all_goals repeat' split
  all_goals first | rfl | skip
  all_goals
    rename_i hx
    rcases hf with hf | hf <;> simp_all

/-- A request that looks nothing up and is answered with an error. -/
theorem request_refused {S : Settings} {n : Node} {fd : Nat} {e : Env} {argv : List Bytes} {p : Picked} (hp : pick n fd e argv = some p)
    {d : DsCmd} (hd : p.h = .ds d)
    (hl : ∀ c : Ctx, c.conf = p.r.conf → c.writable = p.c.writable → lookedUp c d p.argv = [] ∧
      ∃ msg, ∀ br s, dsCommand c br s d p.argv = (br, s, .err msg)) : request S n fd e argv ≠ .crash := by
  unfold pick at hp
  split at hp
  · cases hp
  · rename_i c hc
    split at hp
    · rename_i e' key rest u hpo hns
      split at hp
      · rename_i i r hli hr
        obtain ⟨hh, hhi, rfl⟩ := Option.map_eq_some_iff.1 hp
        dsimp only at hd hl
        unfold request
        rw [hc]
        dsimp only
        split
        · simp
        · rw [hpo]
          dsimp only
          have hdis : dispatch S e' n c (key :: rest) = cmdDs S e' n { c with executed := some i } r d (key :: rest) := by
            unfold dispatch
            rw [hns]
            dsimp only
            rw [hli]
            dsimp only
            rw [hr, hhi]
            dsimp only
            rw [hd]
            rfl
          rw [hdis]
          unfold cmdDs
          obtain ⟨h1, msg, h2⟩ := hl (ctxOf S e' { c with executed := some i } r) rfl rfl
          rw [h1, h2]
          simp [say, mirrorCrash, hns]
      · cases hp
    · cases hp

/-- **C60**, refused requests, in any state and for any keys: in a frozen namespace no key or cursor, and for a client that may not
    write or in a locked namespace no key given to SET or DEL, makes the server leave its buffers. -/
theorem C60_refused_partial (S : Settings) {n : Node} {fd : Nat} {e : Env} {argv : List Bytes} {p : Picked}
    (hp : pick n fd e argv = some p) {d : DsCmd} (hd : p.h = .ds d)
    (h : (d.frozenChecked = true ∧ p.r.conf.lock = .frozen) ∨
      ((d = .set ∨ d = .del) ∧ (p.c.writable = false ∨ p.r.conf.lock ≠ .unlocked))) :
    request S n fd e argv ≠ .crash := by
  apply request_refused hp hd
  intro c hc hw
  rcases h with ⟨h1, h2⟩ | ⟨h1, h2⟩
  · rw [← hc] at h2
    exact ⟨lookedUp_frozen h1 h2 _, ds_frozen c d _ h2 h1⟩
  · rw [← hc, ← hw] at h2
    refine ⟨lookedUp_nowrite h1 h2 _, ?_⟩
    rcases h1 with rfl | rfl
    · exact set_nowrite c _ h2
    · exact del_nowrite c _ h2

/-- Two values, the first one stored at the given time. -/
def exFarAt (t : Nat) : List Event := [.connect 6, farSetAt t [] (str "one"), farSet [] (str "two")]

def crashes (S : Settings) (n : Node) (ev : Event) : Bool := match nodeStep S n ev with | .crash => true | _ => false

/-- C60 is false from the first byte on: the id 613566757 points into the time of the first item, whose last byte is 9 or 8
    here.  With 9 a GET copies one byte too many, with 8 it stays within its buffer. -/
theorem C60_edge_refuted :
    reaches exSeqS (exFarAt 1700000009) (fun n _ => crashes exSeqS n (farGet (sid 613566757))) = true ∧
    reaches exSeqS (exFarAt 1700000008) (fun n _ => !crashes exSeqS n (farGet (sid 613566757))) = true := by
  decide +kernel

/-- The administrator freezes or locks the namespace of `C60_refuted`. -/
def exFarLock (mode : String) : List Event := exFar2 ++
  [.connect 5, .request 5 (exE 2) [str "AUTH", str "pw"],
   .request 5 (exE 2) [str "NSSET", str "default", str mode, str "1"]]

/-- A case: the requests of `C60_refuted` in the same namespace, locked or frozen. -/
theorem C60_refused_example :
    reaches exSeqS (exFarLock "lock") (fun n _ => !crashes exSeqS n (farSet (sid 511305631) (str "x")) &&
      crashes exSeqS n (farGet (sid 511305631))) = true ∧
    reaches exSeqS (exFarLock "freeze") (fun n _ => !crashes exSeqS n (farSet (sid 511305631) (str "x")) &&
      !crashes exSeqS n (farGet (sid 511305631))) = true := by
  decide +kernel

end Zdb
