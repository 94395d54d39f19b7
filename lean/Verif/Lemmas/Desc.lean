/-
The file `zdb-namespace`.
-/
import Verif.Model.Node
import Verif.Lemmas.Layout
namespace Zdb

@[simp] theorem encDescHeader_length (h : DescHeader) : (encDescHeader h).length = 15 := by simp [encDescHeader]

/-- Values that fit in a descriptor header. -/
def DescHeader.WF (h : DescHeader) : Prop :=
  h.version < 2 ^ 32 ∧ h.namelength < 256 ∧ h.passlength < 256 ∧ h.maxsize < 2 ^ 64 ∧ h.flags < 256

theorem take_skip (a b : Bytes) (n k : Nat) (h : a.length = n) : ((a ++ b).drop n).take k = b.take k := by
  rw [← h, List.drop_left]

/-- All fields are read back modulo their width. -/
theorem decDescHeader_enc (h : DescHeader) (tail : Bytes) : decDescHeader (encDescHeader h ++ tail) =
    { version := h.version % 2 ^ 32, namelength := h.namelength % 256, passlength := h.passlength % 256
      maxsize := h.maxsize % 2 ^ 64, flags := h.flags % 256 } := by
  have e : encDescHeader h ++ tail = toLE 4 h.version ++ (toLE 1 h.namelength ++ (toLE 1 h.passlength ++
      (toLE 8 h.maxsize ++ (toLE 1 h.flags ++ tail)))) := by simp [encDescHeader]
  have t : ∀ (k n : Nat) (b : Bytes), (toLE k n ++ b).take k = toLE k n := fun k n b => by
    have := List.take_left (l₁ := toLE k n) (l₂ := b)
    rwa [toLE_length] at this
  have d : ∀ (k n m : Nat) (b : Bytes), (toLE k n ++ b).drop (k + m) = b.drop m := fun k n m b => by
    have := List.drop_append (l₁ := toLE k n) (l₂ := b) (i := k + m)
    rw [this, toLE_length, List.drop_of_length_le (by simp)]; simp
  unfold decDescHeader
  rw [e]
  have d4 : ∀ m, (toLE 4 h.version ++ (toLE 1 h.namelength ++ (toLE 1 h.passlength ++ (toLE 8 h.maxsize ++
      (toLE 1 h.flags ++ tail))))).drop (4 + m) = _ := fun m => d 4 _ m _
  have d5 : ∀ m, (toLE 1 h.namelength ++ (toLE 1 h.passlength ++ (toLE 8 h.maxsize ++ (toLE 1 h.flags ++ tail)))).drop (1 + m) = _ :=
    fun m => d 1 _ m _
  have d6 : ∀ m, (toLE 1 h.passlength ++ (toLE 8 h.maxsize ++ (toLE 1 h.flags ++ tail))).drop (1 + m) = _ :=
    fun m => d 1 _ m _
  have d7 : ∀ m, (toLE 8 h.maxsize ++ (toLE 1 h.flags ++ tail)).drop (8 + m) = _ := fun m => d 8 _ m _
  have x1 := d4 0
  have x2 := (d4 1).trans (d5 0)
  have x3 := (d4 2).trans ((d5 1).trans (d6 0))
  have x4 := (d4 10).trans ((d5 9).trans ((d6 8).trans (d7 0)))
  simp only [Nat.reduceAdd, List.drop_zero] at x1 x2 x3 x4
  rw [x1, x2, x3, x4, t, t, t, t, t, fromLE_toLE, fromLE_toLE, fromLE_toLE, fromLE_toLE, fromLE_toLE]

theorem encDesc_length (c : NsConf) : (encDesc c).length =
    15 + (c.name.length % 256) + ((c.password.getD []).length % 256) := by
  have h1 := Nat.mod_le c.name.length 256
  have h2 := Nat.mod_le (c.password.getD []).length 256
  simp only [encDesc, List.length_append, encDescHeader_length, List.length_take]
  omega

theorem flags_lt (c : NsConf) : 4 + (if c.isPublic then 1 else 0) + (if c.worm then 2 else 0) < 256 := by
  split <;> split <;> omega

/-- The header written for some settings. -/
def headOf (c : NsConf) : DescHeader :=
  ⟨1, c.name.length, (c.password.getD []).length, c.maxsize, 4 + (if c.isPublic then 1 else 0) + (if c.worm then 2 else 0)⟩

theorem encDesc_head (c : NsConf) : encDesc c =
    encDescHeader (headOf c) ++ c.name.take (c.name.length % 256) ++ (c.password.getD []).take ((c.password.getD []).length % 256) := rfl

/-- The password read back from a descriptor. -/
def loadedPass (p : Bytes) : Option Bytes := if p = [] then none else some (cstr p)

/-- The settings read back. -/
def loadedConf (name : Bytes) (c : NsConf) : NsConf :=
  { defaultConf name with password := loadedPass (c.password.getD []), maxsize := c.maxsize % 2 ^ 64
                          isPublic := c.isPublic, worm := c.worm }

theorem loadDesc_enc (name : Bytes) (c : NsConf) (tail : Bytes) (hn : c.name.length < 256)
    (hp : (c.password.getD []).length < 256) :
    loadDesc name (encDesc c ++ tail) = some (loadedConf name c, encDesc c ++ tail) := by
  have hl : ¬ (encDesc c ++ tail).length < descLen := by
    rw [List.length_append, encDesc_length, descLen]; omega
  have hn' := Nat.mod_eq_of_lt hn
  have hp' := Nat.mod_eq_of_lt hp
  unfold loadDesc
  simp only [if_neg hl]
  have e : encDesc c ++ tail = encDescHeader (headOf c) ++ (c.name ++ ((c.password.getD []) ++ tail)) := by
    simp only [encDesc_head, hn', hp', List.take_length, List.append_assoc]
  have hd : decDescHeader (encDesc c ++ tail) = { headOf c with maxsize := c.maxsize % 2 ^ 64 } := by
    rw [e, decDescHeader_enc]
    simp only [headOf, hn', hp', Nat.mod_eq_of_lt (flags_lt c)]
  rw [hd]
  simp only [headOf, ne_eq, not_true, if_false]
  congr 2
  have hdrop : ((encDesc c ++ tail).drop (descLen + c.name.length)).take (c.password.getD []).length = c.password.getD [] := by
    have : (encDescHeader (headOf c) ++ c.name).length = descLen + c.name.length := by
      simp [descLen]
    rw [e, ← List.append_assoc, take_skip _ _ _ _ this, List.take_left]
  rw [hdrop]
  unfold loadedConf loadedPass
  have hb : ∀ p w : Bool, ((4 + (if p = true then 1 else 0) + (if w = true then 2 else 0)) % 2 == 1) = p ∧
      ((4 + (if p = true then 1 else 0) + (if w = true then 2 else 0)) / 2 % 2 == 1) = w := by decide
  simp only [(hb c.isPublic c.worm).1, (hb c.isPublic c.worm).2, List.length_eq_zero_iff]

/-- A descriptor written by `encDesc` is never refused. -/
theorem loadDesc_accepted (name : Bytes) (c : NsConf) (tail : Bytes) :
    (loadDesc name (encDesc c ++ tail)).isSome = true := by
  have hl : ¬ (encDesc c ++ tail).length < descLen := by
    rw [List.length_append, encDesc_length, descLen]; omega
  unfold loadDesc
  simp only [if_neg hl]
  have hv : (decDescHeader (encDesc c ++ tail)).version = 1 := by
    simp only [encDesc_head, List.append_assoc]
    rw [decDescHeader_enc]
    rfl
  rw [hv]
  simp

theorem commitNs_desc (r : NsRec) : ∃ tail, (commitNs r).desc = encDesc r.conf ++ tail := by
  refine ⟨r.desc.drop (encDesc r.conf).length, ?_⟩
  simp [commitNs, pwrite]

theorem mem_cstr (b : Bytes) : (0 : UInt8) ∉ cstr b := by
  unfold cstr
  induction b with
  | nil => simp
  | cons x b ih =>
    rw [List.takeWhile_cons]
    split
    · rename_i h
      simp only [List.mem_cons, not_or]
      exact ⟨fun hh => by simp [← hh] at h, ih⟩
    · simp

theorem cstr_eq {b : Bytes} (h : (0 : UInt8) ∉ b) : cstr b = b := by
  unfold cstr
  induction b with
  | nil => rfl
  | cons x b ih =>
    simp only [List.mem_cons, not_or] at h
    rw [List.takeWhile_cons, if_pos (by simp only [bne_iff_ne, ne_eq]; exact fun hh => h.1 hh.symm), ih h.2]

theorem cstr_length_le (b : Bytes) : (cstr b).length ≤ b.length := by
  unfold cstr
  exact List.Sublist.length_le (List.takeWhile_sublist _)

end Zdb
