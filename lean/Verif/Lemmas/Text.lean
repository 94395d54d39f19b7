/-
Steps of `Verif.Model.Text` that stay within their buffer.
-/
import Verif.Model.Text
import Verif.Lemmas.Bytes
import Verif.Lemmas.Wire
import Verif.Props.Dirty
import Mathlib.Tactic.Ring
namespace Zdb.Text
open Zdb.Wire

theorem printf_ok {b : Buf} {t : Bytes} (h : b.text.length + t.length + 1 ≤ b.size) :
    b.printf t = some ⟨b.size, b.text ++ t⟩ := if_pos h

theorem copy_ok {b : Buf} {t : Bytes} (h : b.text.length + t.length ≤ b.size) :
    b.copy t = some ⟨b.size, b.text ++ t⟩ := if_pos h

theorem only_ok {n : Nat} {t : Bytes} (h : t.length + 1 ≤ n) : only n t = some t := by
  unfold only Buf.new
  rw [printf_ok (by simpa using h)]
  rfl

theorem only_over {n : Nat} {t : Bytes} (h : n < t.length + 1) : only n t = none := by
  unfold only Buf.new Buf.printf
  rw [if_neg (by simp; omega)]
  rfl

theorem each_ok {α : Type} {f : Buf → α → Option Buf} {g : α → Bytes} {w : Nat} :
    ∀ {l : List α} {b : Buf},
      (∀ x ∈ l, ∀ b : Buf, b.text.length + w ≤ b.size → f b x = some ⟨b.size, b.text ++ g x⟩) →
      (∀ x ∈ l, (g x).length ≤ w) → b.text.length + w * l.length ≤ b.size →
      each f l b = some ⟨b.size, b.text ++ l.flatMap g⟩
  | [], b, _, _, _ => by simp [each]
  | x :: l, b, hf, hg, h => by
    have hw : b.text.length + w ≤ b.size := by
      rw [List.length_cons, Nat.mul_add] at h; omega
    rw [each, hf x (List.mem_cons_self ..) b hw]
    have h1 := hg x (List.mem_cons_self ..)
    rw [Option.bind_some, each_ok (fun y hy => hf y (List.mem_cons_of_mem _ hy)) (fun y hy => hg y (List.mem_cons_of_mem _ hy))
      (by
        rw [List.length_cons, Nat.mul_add] at h
        simp only [List.length_append]
        omega)]
    simp [List.append_assoc]

theorem decBytes_len64 {n : Nat} (h : n < 2 ^ 64) : (decBytes n).length ≤ 20 :=
  decBytes_length_le (by decide) (by omega)

theorem decBytes_len32 {n : Nat} (h : n < 2 ^ 32) : (decBytes n).length ≤ 10 :=
  decBytes_length_le (by decide) (by omega)

theorem decBytes_len8 {n : Nat} (h : n < 256) : (decBytes n).length ≤ 3 :=
  decBytes_length_le (by decide) (by omega)

/-- A positive number has no more digits than itself. -/
theorem decBytes_len_self {n : Nat} (h : 0 < n) : (decBytes n).length ≤ n :=
  decBytes_length_le h (Nat.lt_pow_self (by decide))

theorem decInt_asInt32 (n : Nat) : (decInt (asInt32 n)).length ≤ 11 := by
  have h : (asInt32 n).natAbs < 10 ^ 10 := by
    unfold asInt32
    have := Nat.mod_lt n (show 0 < 2 ^ 32 by decide)
    split <;> omega
  unfold decInt
  have := decBytes_length_le (k := 10) (by decide) h
  split
  · simp only [List.length_cons]; omega
  · omega

theorem decInt_nat (n : Nat) : decInt (n : Int) = decBytes n := by
  unfold decInt
  rw [if_neg (by omega)]
  simp

theorem flatMap_length_bulk (l : List Bytes) :
    (l.flatMap encBulk).length = (l.map (fun a => (encBulk a).length)).sum := by
  induction l with
  | nil => rfl
  | cons a l ih => simp [ih]

theorem encList_map {α : Type} (f : α → Reply) (l : List α) :
    encReply.encList (l.map f) = l.flatMap (fun x => encReply (f x)) := by
  induction l with
  | nil => simp [encReply.encList]
  | cons a l ih => simp [encReply.encList, ih]

/-! ### the items listed by SCAN -/

theorem fromLE_pread_lt (b : Bytes) (o k : Nat) : fromLE (pread b o k) < 256 ^ k := by
  refine Nat.lt_of_lt_of_le (fromLE_lt _) (Nat.pow_le_pow_right (by decide) ?_)
  simp only [pread, List.length_take]
  omega

theorem readExact_len {f p : Bytes} {o n : Nat} (h : readExact f o n = some p) : p.length = n := by
  unfold readExact at h
  dsimp only at h
  split at h
  · injection h with h; rw [← h]; assumption
  · cases h

/-- An item as read from a file: the length of its id is that of the byte before it. -/
def ReadItem (it : Item) : Prop := it.id.length = it.idlength ∧ it.idlength < 256

theorem readItemAt_ok {f : Bytes} {off : Nat} {it : Item} (h : readItemAt f off = some (some it)) : ReadItem it := by
  unfold readItemAt at h
  split at h
  · cases h
  · rename_i b hb
    dsimp only at h
    split at h
    · cases h
    · rename_i id hid
      injection h with h
      injection h with h
      subst h
      exact ⟨readExact_len hid, fromLE_pread_lt b 0 1⟩

/-- What a step finds was read from the file. -/
def StepOk (st : Step) : Prop := ∀ t it, st = .found t it → ReadItem it

theorem takeItem_ok (f : Bytes) (t : Nat) : StepOk (takeItem f t) := by
  intro t' it h
  unfold takeItem at h
  split at h
  · rename_i i hi
    injection h with _ h
    subst h
    exact readItemAt_ok hi
  · cases h

theorem nextReal_ok (f : Bytes) (a b : Nat) : StepOk (nextReal f a b) := by
  intro t it h
  unfold nextReal at h
  dsimp only at h
  repeat' split at h
  all_goals first | cases h; done | exact takeItem_ok _ _ _ _ h

theorem firstReal_ok (f : Bytes) (a b : Nat) : StepOk (firstReal f a b) := by
  intro t it h
  unfold firstReal at h
  repeat' split at h
  all_goals first | cases h; done | exact takeItem_ok _ _ _ _ h

theorem prevGo_ok (f : Bytes) (b : Nat) : StepOk (prevReal.go f b) := by
  intro t it h
  unfold prevReal.go at h
  repeat' split at h
  all_goals first | cases h; done | exact takeItem_ok _ _ _ _ h

theorem prevReal_ok (f : Bytes) (a b : Nat) : StepOk (prevReal f a b) := by
  intro t it h
  unfold prevReal at h
  dsimp only at h
  repeat' split at h
  all_goals first | cases h; done | exact prevGo_ok _ _ _ _ h

theorem lastReal_ok (f : Bytes) (a b : Nat) : StepOk (lastReal f a b) := by
  intro t it h
  unfold lastReal at h
  dsimp only at h
  repeat' split at h
  all_goals first | cases h; done | exact takeItem_ok _ _ _ _ h

/-- What a walk finds was read from a file. -/
def WalkOk (w : Walk) : Prop := ∀ f o it, w = .found f o it → ReadItem it

theorem walkUp_ok {step : Bytes → Nat → Nat → Step} (hs : ∀ f a b, StepOk (step f a b)) (fs : List Bytes) :
    ∀ fuel file a b, WalkOk (walkUp step fs fuel file a b)
  | 0, _, _, _ => fun _ _ _ h => by simp [walkUp] at h
  | fuel + 1, file, a, b => by
    intro f o it h
    unfold walkUp at h
    split at h
    · cases h
    · rename_i g _
      split at h
      · rename_i t i hi
        injection h with _ _ h
        subst h
        exact hs _ _ _ _ _ hi
      · cases h
      · cases h
      · exact walkUp_ok hs fs fuel _ _ _ _ _ _ h
      · exact walkUp_ok hs fs fuel _ _ _ _ _ _ h

theorem walkDown_ok {step : Bytes → Nat → Nat → Step} (hs : ∀ f a b, StepOk (step f a b)) (fs : List Bytes) :
    ∀ fuel file a b, WalkOk (walkDown step fs fuel file a b)
  | 0, _, _, _ => fun _ _ _ h => by simp [walkDown] at h
  | fuel + 1, file, a, b => by
    intro f o it h
    unfold walkDown at h
    split at h
    · cases h
    · rename_i g _
      split at h
      · rename_i t i hi
        injection h with _ _ h
        subst h
        exact hs _ _ _ _ _ hi
      · cases h
      · cases h
      · exact walkDown_ok hs fs fuel _ _ _ _ _ _ h
      · exact walkDown_ok hs fs fuel _ _ _ _ _ _ h

theorem scanLoop_ok {walk : Nat → Nat → Walk} (hw : ∀ a b, WalkOk (walk a b)) :
    ∀ n a b, ∀ x ∈ scanLoop walk n a b, ReadItem x.it
  | 0, _, _, x, h => by simp [scanLoop] at h
  | n + 1, a, b, x, h => by
    unfold scanLoop at h
    split at h
    · rename_i f o it hf
      rcases List.mem_cons.1 h with h | h
      · subst h; exact hw _ _ _ _ _ hf
      · exact scanLoop_ok hw n _ _ _ h
    · simp at h

/-- The list of items of a SCAN is the list of items read from the files. -/
theorem scanWith_ok {c : Ctx} {s : Store} {first : Walk} {walk : Nat → Nat → Walk} (hf : WalkOk first)
    (hw : ∀ a b, WalkOk (walk a b)) (argv : List Bytes) :
    scanWith c s first walk argv = .crash ∨ (∃ e, scanWith c s first walk argv = .err e) ∨
      ∃ l, scanWith c s first walk argv = replyScan l ∧ ∀ x ∈ l, ReadItem x.it := by
  unfold scanWith
  split
  · exact Or.inr (Or.inl ⟨_, rfl⟩)
  · split
    · split
      · exact Or.inr (Or.inl ⟨_, rfl⟩)
      · split
        · exact Or.inr (Or.inl ⟨_, rfl⟩)
        · split
          · exact Or.inl rfl
          · exact Or.inr (Or.inr ⟨_, rfl, scanLoop_ok hw _ _ _⟩)
    · split
      · rename_i f o it
        refine Or.inr (Or.inr ⟨_, rfl, ?_⟩)
        intro x hx
        rcases List.mem_cons.1 hx with hx | hx
        · subst hx; exact hf _ _ _ rfl
        · exact scanLoop_ok hw _ _ _ _ hx
      · exact Or.inr (Or.inl ⟨_, rfl⟩)
      · exact Or.inr (Or.inl ⟨_, rfl⟩)

/-! ### numbers read from files -/

theorem itemGetDisk_bounds {s : Store} {a o n : Nat} {it : Item} (h : itemGetDisk s a o n = some it) :
    it.length < 2 ^ 32 ∧ it.timestamp < 2 ^ 32 := by
  unfold itemGetDisk at h
  split at h
  · cases h
  · cases hb : readExact _ o (itemHdr + n) with
    | none => rw [hb] at h; cases h
    | some b =>
      rw [hb] at h
      injection h with h
      subst h
      exact ⟨fromLE_pread_lt b 5 4, fromLE_pread_lt b 18 4⟩

theorem dataGet_bound {s : Store} {off len id n : Nat} {p : Bytes} (hl : len < 2 ^ 32)
    (h : dataGet s off len id n = some p) : p.length < 2 ^ 32 := by
  unfold dataGet at h
  split at h
  · cases h
  · rename_i f _
    dsimp only at h
    have hL : (if len = 0 then (match readExact f off dhdrLen with
        | some h => (decDHdr h).datalength
        | none => 0) else len) < 2 ^ 32 := by
      split
      · split
        · exact fromLE_pread_lt _ 1 4
        · decide
      · exact hl
    generalize (if len = 0 then (match readExact f off dhdrLen with
        | some h => (decDHdr h).datalength
        | none => 0) else len) = L at h hL
    split at h
    · injection h with h; subst h; simp
    · rw [readExact_len h]; exact hL

end Zdb.Text
