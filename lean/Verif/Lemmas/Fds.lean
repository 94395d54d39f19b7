/-
Weakest preconditions for programs over descriptors, and how each function changes the table.
-/
import Verif.Spec.Fds
namespace Zdb.Fds

/-- Every execution avoids `bad`, and when it returns it returns with `Q`. -/
def wp (l : Bool) {α : Type} : Prog α → (α → Fdt → Prop) → Fdt → Prop
  | .ret a, Q, T => Q a T
  | .openf p k, Q, T => wp l (k none) Q T ∧ ∀ fd, T fd = none → wp l (k (some fd)) Q (T.set fd p)
  | .closef none _ k, Q, T => wp l k Q T
  | .closef (some fd) p k, Q, T => T fd = some p ∧ wp l k Q (T.clear fd)
  | .iof none _ k, Q, T => ∀ a, wp l (k a) Q T
  | .iof (some fd) p k, Q, T => T fd = some p ∧ ∀ a, wp l (k a) Q T
  | .askf k, Q, T => ∀ a, wp l (k a) Q T
  | .lose none _ k, Q, T => wp l k Q T
  | .lose (some fd) p k, Q, T => l = true → wp l k Q (T.set fd (.lost p))
  | .die, _, _ => True

theorem wp_sound {l : Bool} {α : Type} {p : Prog α} {T : Fdt} {r : Res α} (h : Exec l p T r) :
    ∀ {Q : α → Fdt → Prop}, wp l p Q T → r = .died ∨ ∃ a T', r = .done a T' ∧ Q a T' := by
  induction h with
  | ret a T => intro Q hw; exact .inr ⟨a, T, rfl, hw⟩
  | opened p k T fd r hf _ ih => intro Q hw; exact ih (hw.2 fd hf)
  | refused p k T r _ ih => intro Q hw; exact ih hw.1
  | closed fd p k T r hf _ ih => intro Q hw; exact ih hw.2
  | closedNeg p k T r _ ih => intro Q hw; exact ih hw
  | closedBad fd p k T hf => intro Q hw; exact absurd hw.1 hf
  | used fd p k T a r hf _ ih => intro Q hw; exact ih (hw.2 a)
  | usedNeg p k T a r _ ih => intro Q hw; exact ih (hw a)
  | usedBad fd p k T hf => intro Q hw; exact absurd hw.1 hf
  | asked k T a r _ ih => intro Q hw; exact ih (hw a)
  | lost fd p k T r hl _ ih => intro Q hw; exact ih (hw hl)
  | lostNeg p k T r _ ih => intro Q hw; exact ih hw
  | died T => intro Q _; exact .inl rfl

theorem wp_mono {l : Bool} {α : Type} {p : Prog α} :
    ∀ {T : Fdt} {Q Q' : α → Fdt → Prop}, wp l p Q T → (∀ a T, Q a T → Q' a T) → wp l p Q' T := by
  induction p with
  | ret a => intro T Q Q' h hq; exact hq _ _ h
  | openf p k ih => intro T Q Q' h hq; exact ⟨ih _ h.1 hq, fun fd hf => ih _ (h.2 fd hf) hq⟩
  | closef fd p k ih =>
    intro T Q Q' h hq
    cases fd with
    | none => exact ih (T := T) h hq
    | some fd => exact ⟨h.1, ih h.2 hq⟩
  | iof fd p k ih =>
    intro T Q Q' h hq
    cases fd with
    | none => exact fun a => ih a (T := T) (h a) hq
    | some fd => exact ⟨h.1, fun a => ih a (h.2 a) hq⟩
  | askf k ih => intro T Q Q' h hq; exact fun a => ih a (T := T) (h a) hq
  | lose fd p k ih =>
    intro T Q Q' h hq
    cases fd with
    | none => exact ih (T := T) h hq
    | some fd => exact fun hl => ih (h hl) hq
  | die => intro T Q Q' _ _; trivial

theorem wp_bind' {l : Bool} {α β : Type} {p : Prog α} {f : α → Prog β} {Q : β → Fdt → Prop} :
    ∀ {T : Fdt}, wp l (p.bind f) Q T ↔ wp l p (fun a T => wp l (f a) Q T) T := by
  induction p with
  | ret a => intro T; exact Iff.rfl
  | openf p k ih => intro T; exact and_congr (ih none) (forall_congr' fun fd => imp_congr Iff.rfl (ih (some fd)))
  | closef fd p k ih =>
    intro T
    cases fd with
    | none => exact ih (T := T)
    | some fd => exact and_congr Iff.rfl ih
  | iof fd p k ih =>
    intro T
    cases fd with
    | none => exact forall_congr' fun a => ih a (T := T)
    | some fd => exact and_congr Iff.rfl (forall_congr' fun a => ih a)
  | askf k ih => intro T; exact forall_congr' fun a => ih a (T := T)
  | lose fd p k ih =>
    intro T
    cases fd with
    | none => exact ih (T := T)
    | some fd => exact imp_congr Iff.rfl ih
  | die => intro T; exact Iff.rfl

section rules
variable {l : Bool} {α β : Type} {T : Fdt}

theorem wp_bind {p : Prog α} {f : α → Prog β} {Q : β → Fdt → Prop} :
    wp l (p >>= f) Q T ↔ wp l p (fun a T => wp l (f a) Q T) T := wp_bind'

theorem wp_pure {a : α} {Q : α → Fdt → Prop} : wp l (pure a) Q T ↔ Q a T := Iff.rfl
theorem wp_ret {a : α} {Q : α → Fdt → Prop} : wp l (.ret a) Q T ↔ Q a T := Iff.rfl
theorem wp_die {Q : α → Fdt → Prop} : wp l .die Q T ↔ True := Iff.rfl
theorem wp_ask {Q : Nat → Fdt → Prop} : wp l ask Q T ↔ ∀ a, Q a T := Iff.rfl
theorem wp_openp {p : Path} {Q : Option Nat → Fdt → Prop} :
    wp l (openp p) Q T ↔ Q none T ∧ ∀ fd, T fd = none → Q (some fd) (T.set fd p) := Iff.rfl
theorem wp_io_none {p : Path} {Q : Nat → Fdt → Prop} : wp l (io none p) Q T ↔ ∀ a, Q a T := Iff.rfl
theorem wp_io_some {fd : Nat} {p : Path} {Q : Nat → Fdt → Prop} :
    wp l (io (some fd) p) Q T ↔ T fd = some p ∧ ∀ a, Q a T := Iff.rfl
theorem wp_close_none {p : Path} {Q : Unit → Fdt → Prop} : wp l (close none p) Q T ↔ Q () T := Iff.rfl
theorem wp_close_some {fd : Nat} {p : Path} {Q : Unit → Fdt → Prop} :
    wp l (close (some fd) p) Q T ↔ T fd = some p ∧ Q () (T.clear fd) := Iff.rfl
theorem wp_lose_none {p : Path} {Q : Unit → Fdt → Prop} : wp l (lose none p) Q T ↔ Q () T := Iff.rfl
theorem wp_lose_some {fd : Nat} {p : Path} {Q : Unit → Fdt → Prop} :
    wp l (lose (some fd) p) Q T ↔ (l = true → Q () (T.set fd (.lost p))) := Iff.rfl

/-- The descriptor is the one of the file, if it is one. -/
def Ok (T : Fdt) (fd : Option Nat) (p : Path) : Prop := ∀ n, fd = some n → T n = some p

theorem wp_io {fd : Option Nat} {p : Path} {Q : Nat → Fdt → Prop} (h : Ok T fd p) (hq : ∀ a, Q a T) :
    wp l (io fd p) Q T := by
  cases fd with
  | none => exact hq
  | some n => exact ⟨h n rfl, hq⟩

theorem wp_ios {fd : Option Nat} {p : Path} {Q : Unit → Fdt → Prop} (h : Ok T fd p) (hq : Q () T) :
    ∀ n, wp l (ios fd p n) Q T := by
  intro n
  induction n with
  | zero => exact hq
  | succ n ih =>
    simp only [ios, wp_bind]
    exact wp_io h fun _ => ih

theorem set_clear {fd : Nat} {p : Path} (h : T fd = none) : (T.set fd p).clear fd = T := by
  funext n
  simp only [Fdt.set, Fdt.clear]
  split
  · next e => rw [e, h]
  · rfl

theorem set_self {fd : Nat} {p : Path} : (T.set fd p) fd = some p := by simp [Fdt.set]

theorem set_ne {fd n : Nat} {p : Path} (h : n ≠ fd) : (T.set fd p) n = T n := by simp [Fdt.set, h]

theorem ok_set {fd : Nat} {p : Path} : Ok (T.set fd p) (some fd) p := by
  intro n hn
  cases hn
  exact set_self

theorem Ok.set {fd : Option Nat} {p q : Path} {n : Nat} (h : Ok T fd p) (hn : T n = none) : Ok (T.set n q) fd p := by
  intro m hm
  have := h m hm
  rw [set_ne]
  · exact this
  · intro e
    rw [e, hn] at this
    cases this

/-! ### functions that leave the table as it is -/

variable {r : Root}

/-- The descriptors of a namespace are those of its current files. -/
def RootOk (T : Fdt) (r : Root) : Prop := Ok T r.idxFd r.idxPath ∧ Ok T r.datFd r.datPath

theorem wp_dataSyncCheck {fd : Option Nat} {p : Path} {Q : Unit → Fdt → Prop} (h : Ok T fd p) (hq : Q () T) :
    wp l (dataSyncCheck fd p) Q T := by
  simp only [dataSyncCheck, wp_bind, wp_ask]
  intro a
  split
  · exact hq
  · simp only [wp_bind]
    exact wp_io h fun _ => hq

theorem wp_dataWrite {fd : Option Nat} {p : Path} {b : Bool} {Q : Bool → Fdt → Prop} (h : Ok T fd p)
    (hq : ∀ a, Q a T) : wp l (dataWrite fd p b) Q T := by
  simp only [dataWrite, wp_bind]
  refine wp_io h fun a => ?_
  split
  · exact hq _
  · try simp only [wp_bind]
    split
    · refine wp_bind.2 (wp_dataSyncCheck h ?_)
      exact hq _
    · exact hq _

theorem wp_dataFetch {id : Nat} {Q : Unit → Fdt → Prop} (h : Ok T r.datFd r.datPath) (hq : Q () T) :
    wp l (dataFetch r id) Q T := by
  simp only [dataFetch, wp_bind]
  unfold dataGrab
  split
  · next hne =>
    have key : ∀ fd, T fd = none →
        wp l (ask >>= fun n => ios (some fd) (.data r.ns id) n >>= fun _ => dataRelease r id (some fd)) Q
          (T.set fd (.data r.ns id)) := by
      intro fd hfd
      simp only [wp_bind, wp_ask]
      intro n
      refine wp_ios ok_set ?_ n
      simp only [dataRelease, if_pos hne, wp_close_some]
      exact ⟨set_self, by rw [set_clear hfd]; exact hq⟩
    simp only [dataOpenId, wp_bind, wp_openp]
    refine ⟨?_, fun fd hfd => ?_⟩
    · simp only [wp_bind, wp_ask]
      intro a
      split
      · exact hq
      · exact ⟨hq, fun fd hfd => key fd hfd⟩
    · exact key fd hfd
  · next he =>
    have he : r.datId = id := by simpa using he
    simp only [wp_pure]
    cases hd : r.datFd with
    | none => exact hq
    | some fd =>
      simp only [wp_bind, wp_ask]
      intro n
      have hok : Ok T (some fd) (.data r.ns id) := by
        rw [← hd, ← he]
        exact h
      refine wp_ios hok ?_ n
      simp only [dataRelease, he, ne_eq, not_true_eq_false, if_false, wp_pure]
      exact hq

theorem wp_dataInsert {Q : Bool → Fdt → Prop} (h : Ok T r.datFd r.datPath) (hq : ∀ a, Q a T) :
    wp l (dataInsert r) Q T := by
  simp only [dataInsert, wp_bind]
  refine wp_io h fun _ => wp_dataWrite h fun a => ?_
  cases a with
  | true => exact wp_dataWrite h hq
  | false => exact hq _

theorem wp_dataInitialize {Q : Unit → Fdt → Prop} (hq : Q () T) : wp l (dataInitialize r) Q T := by
  simp only [dataInitialize, wp_bind, wp_openp]
  refine ⟨?_, fun fd hfd => ?_⟩
  · simp only [wp_bind, wp_ask]
    intro a
    split
    · trivial
    · exact hq
  · try simp only [wp_bind]
    refine wp_io ok_set fun _ => wp_dataWrite ok_set fun b => ?_
    cases b with
    | false => trivial
    | true => exact ⟨set_self, by rw [set_clear hfd]; exact hq⟩

theorem wp_indexWrite {fd : Option Nat} {p : Path} {Q : Bool → Fdt → Prop} (h : Ok T fd p) (hq : ∀ a, Q a T) :
    wp l (indexWrite fd p) Q T := by
  simp only [indexWrite, wp_bind]
  refine wp_io h fun a => ?_
  split
  · exact hq _
  · simp only [wp_bind, wp_ask]
    intro b
    split
    · exact hq _
    · simp only [wp_bind]
      exact wp_io h fun _ => hq _

theorem wp_indexInitialize {fd : Option Nat} {p : Path} {Q : Unit → Fdt → Prop} (h : Ok T fd p) (hq : Q () T) :
    wp l (indexInitialize fd p) Q T := by
  simp only [indexInitialize, wp_bind]
  refine wp_indexWrite h fun a => ?_
  cases a with
  | true => exact hq
  | false => trivial

theorem wp_indexItemGetDisk {id : Nat} {Q : Bool → Fdt → Prop} (hq : ∀ a, Q a T) :
    wp l (indexItemGetDisk r id) Q T := by
  simp only [indexItemGetDisk, wp_bind, wp_openp]
  refine ⟨hq _, fun fd hfd => ?_⟩
  try simp only [wp_bind]
  refine wp_io ok_set fun _ => wp_io ok_set fun a => ?_
  split <;> exact ⟨set_self, by rw [set_clear hfd]; exact hq _⟩

theorem wp_indexOverwrite {id : Nat} {Q : Bool → Fdt → Prop} (hq : ∀ a, Q a T) :
    wp l (indexOverwrite r id) Q T := by
  simp only [indexOverwrite, wp_bind, wp_openp]
  refine ⟨hq _, fun fd hfd => ?_⟩
  try simp only [wp_bind]
  refine wp_io ok_set fun _ => wp_io ok_set fun a => ?_
  split
  · exact ⟨set_self, by rw [set_clear hfd]; exact hq _⟩
  · simp only [wp_bind]
    refine wp_io ok_set fun _ => wp_io ok_set fun b => ?_
    split <;> exact ⟨set_self, by rw [set_clear hfd]; exact hq _⟩

theorem wp_indexAppend {Q : Bool → Fdt → Prop} (h : Ok T r.idxFd r.idxPath) (hq : ∀ a, Q a T) :
    wp l (indexAppend r) Q T := by
  simp only [indexAppend, wp_bind]
  exact wp_io h fun _ => wp_indexWrite h hq

theorem wp_indexGet {Q : Bool → Fdt → Prop} (hq : ∀ a, Q a T) : wp l (indexGet r) Q T := by
  simp only [indexGet, wp_bind, wp_ask]
  intro a
  split
  · simp only [wp_bind, wp_ask]
    exact fun b => hq _
  · simp only [wp_bind, wp_ask]
    exact fun b => wp_indexItemGetDisk hq

theorem wp_indexSet {b : Bool} {Q : Bool → Fdt → Prop} (h : Ok T r.idxFd r.idxPath) (hq : ∀ a, Q a T) :
    wp l (indexSet r b) Q T := by
  simp only [indexSet]
  cases b with
  | false => exact wp_indexAppend h hq
  | true =>
    simp only [if_true, wp_bind, wp_ask]
    intro a
    split
    · simp only [wp_bind, wp_ask]
      exact fun id => wp_indexOverwrite fun _ => wp_indexAppend h hq
    · simp only [wp_bind]
      refine wp_indexAppend h fun ok => ?_
      cases ok with
      | true =>
        simp only [if_true, wp_bind, wp_ask]
        exact fun id => wp_indexOverwrite fun _ => hq _
      | false => exact hq _

theorem wp_scanReal {fd : Option Nat} {p : Path} {Q : ScanStatus → Fdt → Prop} (h : Ok T fd p) (hq : ∀ a, Q a T) :
    wp l (scanReal fd p) Q T := by
  simp only [scanReal, wp_bind, wp_ask]
  intro n
  refine wp_ios h ?_ n
  intro s
  split <;> exact hq _

theorem wp_scanLoop {up : Bool} {Q : Bool → Fdt → Prop} (h : Ok T r.idxFd r.idxPath) (hq : ∀ a, Q a T) :
    ∀ n id, wp l (scanLoop r up n id) Q T := by
  intro n
  induction n with
  | zero => intro id; trivial
  | succ n ih =>
    intro id
    simp only [scanLoop, wp_bind]
    have key : ∀ st : ScanStatus, wp l (match st with
        | .success => pure true
        | .unexpected => pure false
        | .noMore => pure false
        | .deleted => scanLoop r up n id
        | .move => scanLoop r up n (if up then (id + 1) % 2 ^ 32 else (id + 2 ^ 32 - 1) % 2 ^ 32)) Q T := by
      intro st
      cases st with
      | success => exact hq _
      | unexpected => exact hq _
      | noMore => exact hq _
      | deleted => exact ih id
      | move => exact ih _
    unfold indexGrab
    split
    · next hne =>
      refine ⟨hq _, fun fd hfd => ?_⟩
      simp only [wp_bind, wp_ret]
      refine wp_scanReal ok_set fun st => ?_
      simp only [indexRelease, if_pos hne, wp_close_some]
      refine ⟨set_self, ?_⟩
      rw [set_clear hfd]
      have := key st
      cases st <;> exact this
    · next he =>
      have he : r.idxId = id := by simpa using he
      simp only [wp_pure]
      cases hd : r.idxFd with
      | none => exact hq _
      | some fd =>
        simp only [wp_bind]
        have hok : Ok T (some fd) (.index r.ns id) := by
          rw [← hd, ← he]
          exact h
        refine wp_scanReal hok fun st => ?_
        simp only [indexRelease, he, ne_eq, not_true_eq_false, if_false, wp_pure]
        have := key st
        cases st <;> exact this

theorem wp_scanMany {up : Bool} {Q : Unit → Fdt → Prop} (h : Ok T r.idxFd r.idxPath) (hq : Q () T) :
    ∀ n, wp l (scanMany r up n) Q T := by
  intro n
  induction n with
  | zero => exact hq
  | succ n ih =>
    simp only [scanMany, wp_bind, wp_ask]
    intro id fuel
    refine wp_scanLoop h (fun a => ?_) fuel id
    cases a with
    | true => exact ih
    | false => exact hq

theorem wp_namespaceCommit {ns : Nat} {Q : Unit → Fdt → Prop} (hq : Q () T) : wp l (namespaceCommit ns) Q T := by
  simp only [namespaceCommit, wp_bind, wp_openp]
  refine ⟨hq, fun fd hfd => ?_⟩
  simp only [wp_bind, wp_ask]
  intro n
  refine wp_ios ok_set ?_ n
  exact ⟨set_self, by rw [set_clear hfd]; exact hq⟩

end rules

end Zdb.Fds
