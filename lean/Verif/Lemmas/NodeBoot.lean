/-
Loading the namespaces at startup.
-/
import Verif.Lemmas.NodeBase
import Verif.Lemmas.TagsUsed
namespace Zdb

/-- How a namespace of the list `l` was loaded from directory `d`; `br` is the table once everything is loaded. -/
structure Loaded (S : Settings) (br : Branches) (d : Dir) (r : NsRec) : Prop where
  uid : r.uid = d.uid
  desc : loadDesc d.name d.desc = some (r.conf, r.desc)
  store : ∃ br1 br2, loadNs S.cfg br1 d.uid d.ifiles d.dfiles = .ok br2 r.store ∧
    (∀ h, nsBranch br1 d.uid h = []) ∧ ∀ h, nsBranch br d.uid h = nsBranch br2 d.uid h

/-- Two lists related element by element. -/
inductive All2 {α β : Type} (R : α → β → Prop) : List α → List β → Prop where
  | nil : All2 R [] []
  | cons {a : α} {b : β} {l : List α} {m : List β} (h : R a b) (t : All2 R l m) : All2 R (a :: l) (b :: m)

theorem All2.right {α β : Type} {R : α → β → Prop} {l : List α} {m : List β} (h : All2 R l m) :
    ∀ b ∈ m, ∃ a ∈ l, R a b := by
  induction h with
  | nil => intro b hb; simp at hb
  | cons hx _ ih =>
    intro b hb
    rcases List.mem_cons.1 hb with rfl | hb
    · exact ⟨_, List.mem_cons_self .., hx⟩
    · obtain ⟨y, h1, h2⟩ := ih b hb
      exact ⟨y, List.mem_cons_of_mem _ h1, h2⟩

theorem All2.left {α β : Type} {R : α → β → Prop} {l : List α} {m : List β} (h : All2 R l m) :
    ∀ a ∈ l, ∃ b ∈ m, R a b := by
  induction h with
  | nil => intro b hb; simp at hb
  | cons hx _ ih =>
    intro b hb
    rcases List.mem_cons.1 hb with rfl | hb
    · exact ⟨_, List.mem_cons_self .., hx⟩
    · obtain ⟨y, h1, h2⟩ := ih b hb
      exact ⟨y, List.mem_cons_of_mem _ h1, h2⟩

theorem All2.map_eq {α β γ : Type} {R : α → β → Prop} {l : List α} {m : List β} (h : All2 R l m) (f : α → γ) (g : β → γ)
    (hfg : ∀ a b, R a b → f a = g b) : l.map f = m.map g := by
  induction h with
  | nil => rfl
  | cons hx _ ih => rw [List.map_cons, List.map_cons, ih, hfg _ _ hx]

/-- Directories whose descriptor is accepted. -/
def accepted (d : Dir) : Bool := (loadDesc d.name d.desc).isSome

theorem loadDirs_ok {S : Settings} (ds : List Dir) : ∀ {br br' : Branches} {l : List NsRec},
    (ds.map (·.uid)).Nodup → (∀ d ∈ ds, ∀ h, nsBranch br d.uid h = []) → loadDirs S br ds = .ok br' l →
    (∀ v h, v ∉ l.map (·.uid) → nsBranch br' v h = nsBranch br v h) ∧
    All2 (Loaded S br') (ds.filter accepted) l := by
  induction ds with
  | nil =>
    intro br br' l _ _ h
    simp only [loadDirs] at h
    injection h with h1 h2
    subst h1; subst h2
    exact ⟨fun _ _ _ => rfl, .nil⟩
  | cons d ds ih =>
    intro br br' l hn hb h
    simp only [List.map_cons, List.nodup_cons] at hn
    simp only [loadDirs] at h
    cases hd : loadDesc d.name d.desc with
    | none =>
      rw [hd] at h
      have : accepted d = false := by simp [accepted, hd]
      rw [List.filter_cons, this]
      exact ih hn.2 (fun x hx => hb x (List.mem_cons_of_mem _ hx)) h
    | some p =>
      obtain ⟨conf, desc⟩ := p
      rw [hd] at h
      simp only at h
      have ha : accepted d = true := by simp [accepted, hd]
      cases hl : loadNs S.cfg br d.uid d.ifiles d.dfiles with
      | ok b s =>
        rw [hl] at h
        simp only at h
        cases hr : loadDirs S b ds with
        | ok b' l' =>
          rw [hr] at h
          simp only at h
          injection h with h1 h2
          subst h1; subst h2
          have ho := loadNs_only hl
          have hb' : ∀ x ∈ ds, ∀ h, nsBranch b x.uid h = [] := by
            intro x hx k
            rw [ho x.uid k (fun hh => hn.1 (hh ▸ List.mem_map.2 ⟨x, hx, rfl⟩))]
            exact hb x (List.mem_cons_of_mem _ hx) k
          obtain ⟨i1, i2⟩ := ih hn.2 hb' hr
          have hd' : d.uid ∉ l'.map (·.uid) := by
            intro hmem
            obtain ⟨r, hr1, hr2⟩ := List.mem_map.1 hmem
            obtain ⟨x, hx1, hx2⟩ := i2.right r hr1
            exact hn.1 (List.mem_map.2 ⟨x, (List.mem_filter.1 hx1).1, by rw [← hx2.uid, hr2]⟩)
          refine ⟨?_, ?_⟩
          · intro v k hv
            simp only [List.map_cons, List.mem_cons, not_or] at hv
            rw [i1 v k hv.2, ho v k hv.1]
          · rw [List.filter_cons, if_pos ha]
            refine .cons ⟨rfl, hd, br, b, hl, hb d (List.mem_cons_self ..), fun k => i1 d.uid k hd'⟩ i2
        | exit => rw [hr] at h; exact absurd h (by simp)
        | ub => rw [hr] at h; exact absurd h (by simp)
      | exit => rw [hl] at h; exact absurd h (by simp)
      | ub => rw [hl] at h; exact absurd h (by simp)

end Zdb
