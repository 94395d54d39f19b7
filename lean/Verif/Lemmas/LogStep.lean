/-
How a log changes in user-key mode: records are appended, and the flags of old records are set.
-/
import Verif.Lemmas.Log
namespace Zdb

/-- A record without its flags. -/
def Loc.stat (l : Loc) : Loc := { l with r := { l.r with item := { l.r.item with flags := 0 } } }

/-- The second list is the first one where some live records, all of them of keys satisfying `P`, are now
    deleted. -/
def Kills (P : Bytes → Prop) : List Loc → List Loc → Prop
  | [], [] => True
  | a :: l, b :: m =>
    (a.stat = b.stat ∧ (b.live = true → a.live = true) ∧ (a.live = true → b.live = false → P a.id)) ∧
      Kills P l m
  | _, _ => False

/-- A log changed into another one by commands writing keys that satisfy `P`.  A new record of a key that was
    there has the record of that key as its parent. -/
def LogStep (P : Bytes → Prop) (G G' : Log) : Prop :=
  G.length ≤ G'.length ∧ ∃ L E, locs G' = L ++ E ∧ Kills P (locs G) L ∧
    ∀ e ∈ E, (P e.id ∧ e.live = true) ∧ ∀ m ∈ locs G, m.live = true → m.id = e.id →
      e.r.item.parentid = m.file ∧ e.r.item.parentoff = m.off

theorem Kills.refl (P : Bytes → Prop) (l : List Loc) : Kills P l l := by
  induction l with
  | nil => trivial
  | cons a l ih => exact ⟨⟨rfl, id, fun h1 h2 => by rw [h1] at h2; cases h2⟩, ih⟩

theorem Kills.append {P : Bytes → Prop} {a b c d : List Loc} (h1 : Kills P a b) (h2 : Kills P c d) :
    Kills P (a ++ c) (b ++ d) := by
  induction a generalizing b with
  | nil =>
    cases b with
    | nil => exact h2
    | cons _ _ => exact absurd h1 id
  | cons x a ih =>
    cases b with
    | nil => exact absurd h1 id
    | cons y b => exact ⟨h1.1, ih h1.2⟩

theorem Kills.split {P : Bytes → Prop} {a c m : List Loc} (h : Kills P (a ++ c) m) :
    ∃ b d, m = b ++ d ∧ Kills P a b ∧ Kills P c d := by
  induction a generalizing m with
  | nil => exact ⟨[], m, rfl, trivial, h⟩
  | cons x a ih =>
    cases m with
    | nil => exact absurd h id
    | cons y m =>
      obtain ⟨b, d, rfl, h1, h2⟩ := ih h.2
      exact ⟨y :: b, d, rfl, ⟨h.1, h1⟩, h2⟩

theorem Kills.one (P : Bytes → Prop) (A B : List Loc) {l l' : Loc} (h1 : l.stat = l'.stat)
    (h2 : l'.live = true → l.live = true) (h3 : P l.id) : Kills P (A ++ l :: B) (A ++ l' :: B) :=
  (Kills.refl P A).append ⟨⟨h1, h2, fun _ _ => h3⟩, Kills.refl P B⟩

theorem Kills.mono {P Q : Bytes → Prop} (hpq : ∀ k, P k → Q k) {a b : List Loc} (h : Kills P a b) :
    Kills Q a b := by
  induction a generalizing b with
  | nil =>
    cases b with
    | nil => trivial
    | cons _ _ => exact absurd h id
  | cons x a ih =>
    cases b with
    | nil => exact absurd h id
    | cons y b => exact ⟨⟨h.1.1, h.1.2.1, fun h1 h2 => hpq _ (h.1.2.2 h1 h2)⟩, ih h.2⟩

theorem LogStep.refl (P : Bytes → Prop) (G : Log) : LogStep P G G :=
  ⟨Nat.le_refl _, locs G, [], by simp, Kills.refl _ _, by simp⟩

theorem LogStep.jump (P : Bytes → Prop) (G : Log) : LogStep P G (logJump G) :=
  ⟨by simp [logJump], locs G, [], by simp [locs_jump], Kills.refl _ _, by simp⟩

theorem LogStep.of_locs {P : Bytes → Prop} {G G1 G2 : Log} (hl : locs G1 = locs G)
    (hlen : G.length ≤ G1.length) (h : LogStep P G1 G2) : LogStep P G G2 := by
  obtain ⟨h1, L, E, h2, h3, h4⟩ := h
  exact ⟨by omega, L, E, h2, by rw [← hl]; exact h3, by rw [← hl]; exact h4⟩

theorem LogStep.mono {P Q : Bytes → Prop} (hpq : ∀ k, P k → Q k) {G G' : Log} (h : LogStep P G G') :
    LogStep Q G G' := by
  obtain ⟨h1, L, E, h2, h3, h4⟩ := h
  exact ⟨h1, L, E, h2, h3.mono hpq, fun e he => ⟨⟨hpq _ (h4 e he).1.1, (h4 e he).1.2⟩, (h4 e he).2⟩⟩

end Zdb
