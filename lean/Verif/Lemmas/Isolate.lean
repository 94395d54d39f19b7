/-
What a namespace replies depends on the entries of this namespace only, also when it is loaded again.
-/
import Verif.Lemmas.NodeReq
namespace Zdb

theorem insertMemUser_congr {br br' : Branches} {u : Nat} (h : SameTags u br br') (s : Store) (e : Entry) :
    SameRes u (insertMemUser br s u e) (insertMemUser br' s u e) := by
  refine ⟨fun k => ?_, rfl⟩
  simp only [insertMemUser]
  rw [nsBranch_append, nsBranch_append, h k]

theorem replayUser_congr {br br' : Branches} {u : Nat} (h : SameTags u br br') (s : Store) (off : Nat) (it : Item) :
    SameRes u (replayUser br s u off it) (replayUser br' s u off it) := by
  unfold replayUser
  rw [indexGet_congr h]
  cases hg : indexGet br' s u it.id with
  | some ex =>
    have hns : (updatedEntry s ex (sourceEntry s u off it)).ns = u := (indexGet_ns hg : ex.ns = u)
    simp only
    split
    · exact ⟨fun k => by rw [nsBranch_remove, nsBranch_remove, h k], rfl⟩
    · refine ⟨fun k => ?_, rfl⟩
      dsimp only
      rw [nsBranch_update _ _ _ _ _ hns, nsBranch_update _ _ _ _ _ hns, h k]
  | none =>
    have hi := insertMemUser_congr h s (sourceEntry s u off it)
    simp only
    split
    · exact ⟨fun k => by rw [nsBranch_remove, nsBranch_remove, hi.tags k], by rw [hi.rest]⟩
    · exact hi

theorem replayItem_congr {br br' : Branches} {u : Nat} (h : SameTags u br br') (s : Store) (off : Nat) (it : Item) :
    SameRes u (replayItem br s u off it) (replayItem br' s u off it) := by
  unfold replayItem
  simp only
  generalize (if off = ihdrLen then { s with seqmap := s.seqmap.map (· ++ [(s.nextentry, s.indexid)]) } else s) = t
  cases t.mode with
  | user =>
    have hk := replayUser_congr h t off it
    exact ⟨hk.tags, by simp only [hk.rest]⟩
  | seq => exact ⟨h, rfl⟩

theorem replayItems_congr {u : Nat} (its : List Item) : ∀ {br br' : Branches} (s : Store) (off : Nat), SameTags u br br' →
    SameRes u (replayItems br s u off its) (replayItems br' s u off its) := by
  induction its with
  | nil => exact fun s off h => ⟨h, rfl⟩
  | cons it its ih =>
    intro br br' s off h
    simp only [replayItems]
    have hk := replayItem_congr h s off it
    rw [hk.rest]
    exact ih _ _ hk.tags

/-- The same outcome of loading a file, up to the entries of other namespaces. -/
def SameFile (u : Nat) : FileRes → FileRes → Prop
  | .next br s, .next br' s' => SameTags u br br' ∧ s = s'
  | .stop br s, .stop br' s' => SameTags u br br' ∧ s = s'
  | .exit, .exit => True
  | .ub, .ub => True
  | _, _ => False

/-- The same outcome of loading, up to the entries of other namespaces. -/
def SameLoad (u : Nat) : LoadRes → LoadRes → Prop
  | .ok br s, .ok br' s' => SameTags u br br' ∧ s = s'
  | .exit, .exit => True
  | .ub, .ub => True
  | _, _ => False

theorem loadBody_congr {cfg : Option Mode} {br br' : Branches} {u : Nat} (h : SameTags u br br') (s : Store) (f : Bytes)
    (fresh : Bool) : SameFile u (loadBody cfg br s u f fresh) (loadBody cfg br' s u f fresh) := by
  unfold loadBody
  simp only
  split
  · trivial
  · split
    · trivial
    · split
      · trivial
      · rename_i its _
        have hk := fun t => replayItems_congr its t ihdrLen h
        split
        · exact ⟨(hk _).tags, (hk _).rest⟩
        · exact ⟨(hk _).tags, (hk _).rest⟩

theorem loadFile_congr {cfg : Option Mode} {br br' : Branches} {u : Nat} (h : SameTags u br br') (s : Store) :
    SameFile u (loadFile cfg br s u) (loadFile cfg br' s u) := by
  unfold loadFile
  simp only
  split
  · split
    · exact ⟨h, rfl⟩
    · exact loadBody_congr h _ _ _
  · split
    · trivial
    · exact loadBody_congr h _ _ _

theorem loadLoop_congr {cfg : Option Mode} {u : Nat} (ids : List Nat) : ∀ {br br' : Branches} (s : Store), SameTags u br br' →
    SameLoad u (loadLoop cfg u ids br s) (loadLoop cfg u ids br' s) := by
  induction ids with
  | nil => exact fun s h => ⟨h, rfl⟩
  | cons id ids ih =>
    intro br br' s h
    simp only [loadLoop]
    have hk := loadFile_congr (cfg := cfg) h (indexSetId s id)
    generalize loadFile cfg br (indexSetId s id) u = a at hk ⊢
    generalize loadFile cfg br' (indexSetId s id) u = b at hk ⊢
    cases a <;> cases b <;> simp only [SameFile] at hk ⊢
    · rw [hk.2]; exact ih _ hk.1
    · exact hk
    · trivial
    · trivial

theorem loadNs_congr {cfg : Option Mode} {br br' : Branches} {u : Nat} (h : SameTags u br br') (fi fd : List Bytes) :
    SameLoad u (loadNs cfg br u fi fd) (loadNs cfg br' u fi fd) := by
  unfold loadNs
  simp only
  have hk := loadLoop_congr (cfg := cfg) (if maxFiles fi > 0 then List.range (maxFiles fi) else [0])
    ((List.range (maxFiles fi + 1)).foldl indexSetId (initRoot cfg fi fd)) h
  generalize loadLoop cfg u (if maxFiles fi > 0 then List.range (maxFiles fi) else [0]) br _ = a at hk ⊢
  generalize loadLoop cfg u (if maxFiles fi > 0 then List.range (maxFiles fi) else [0]) br' _ = b at hk ⊢
  cases a <;> cases b <;> simp only [SameLoad] at hk ⊢
  exact ⟨hk.1, by rw [hk.2]⟩

theorem reloadNs_congr {cfg : Option Mode} {br br' : Branches} {u : Nat} (h : SameTags u br br') (s : Store) :
    SameLoad u (reloadNs cfg br u s) (reloadNs cfg br' u s) := by
  unfold reloadNs
  refine loadNs_congr (fun k => ?_) _ _
  cases s.mode with
  | user => simp only [nsBranch_clean]
  | seq => exact h k

/-- The part of what a namespace sees that is its own: its commands and its reloads. -/
def ownPart (tr : List (NsEvent × Reply)) : List (NsEvent × Reply) :=
  tr.filter fun x => match x.1 with
    | .foreign => false
    | _ => true

/-- Two executions of a namespace with the same own events, from the same files and own entries: the replies are the
    same, and so are the files, the memory and the own entries at the end. -/
theorem nsRun_det {cfg : Option Mode} {u : Nat} {br b1 : Branches} {s s1 : Store} {tr : List (NsEvent × Reply)}
    (h : NsRun cfg u br s tr b1 s1) : ∀ {br' b2 : Branches} {s2 : Store} {tr' : List (NsEvent × Reply)},
    NsRun cfg u br' s tr' b2 s2 → SameTags u br br' → (ownPart tr).map (·.1) = (ownPart tr').map (·.1) →
    ownPart tr = ownPart tr' ∧ s1 = s2 ∧ SameTags u b1 b2 := by
  induction h with
  | nil br s =>
    intro br' b2 s2 tr' h' ht he
    induction h' with
    | nil br' s => exact ⟨rfl, rfl, ht⟩
    | cmd c d argv hu h1 h2 ih => simp [ownPart] at he
    | foreign h1 h2 ih => exact ih (fun k => (ht k).trans (h1 k).symm) he
    | reload h1 h2 ih => simp [ownPart] at he
  | @cmd c d argv br br1 br2 s s1 s2 r tr hu h1 h2 ih =>
    intro br' b2 s2' tr' h' ht he
    generalize hs : s = s0 at h'
    induction h' with
    | nil br' s => simp [ownPart] at he
    | @cmd c' d' argv' br' br1' br2' s' s1' s2' r' tr' hu' h1' h2' ih' =>
      subst hs
      have e1 : ownPart ((.cmd c d argv, r) :: tr) = (.cmd c d argv, r) :: ownPart tr := rfl
      have e2 : ownPart ((.cmd c' d' argv', r') :: tr') = (.cmd c' d' argv', r') :: ownPart tr' := rfl
      rw [e1, e2, List.map_cons, List.map_cons, List.cons.injEq] at he
      obtain ⟨he1, he2⟩ := he
      simp only [NsEvent.cmd.injEq] at he1
      obtain ⟨rfl, rfl, rfl⟩ := he1
      subst hu
      have hk := dsCommand_congr ht s d argv
      rw [h1, h1'] at hk
      obtain ⟨k1, k2⟩ := hk
      simp only [Prod.mk.injEq] at k1 k2
      obtain ⟨rfl, rfl⟩ := k2
      obtain ⟨i1, i2, i3⟩ := ih h2' k1 he2
      exact ⟨by rw [e1, e2, i1], i2, i3⟩
    | foreign h1' h2' ih' => exact ih' (fun k => (ht k).trans (h1' k).symm) he hs
    | reload h1' h2' ih' => simp [ownPart] at he
  | @reload br br1 br2 s s1 s2 tr h1 h2 ih =>
    intro br' b2 s2' tr' h' ht he
    generalize hs : s = s0 at h'
    induction h' with
    | nil br' s => simp [ownPart] at he
    | cmd c' d' argv' hu' h1' h2' ih' => simp [ownPart] at he
    | foreign h1' h2' ih' => exact ih' (fun k => (ht k).trans (h1' k).symm) he hs
    | @reload br' br1' br2' s' s1' s2' tr' h1' h2' ih' =>
      subst hs
      have e1 : ownPart ((.reload, .ok) :: tr) = (.reload, .ok) :: ownPart tr := rfl
      have e2 : ownPart ((.reload, .ok) :: tr') = (.reload, .ok) :: ownPart tr' := rfl
      rw [e1, e2, List.map_cons, List.map_cons, List.cons.injEq] at he
      have hk := reloadNs_congr (cfg := cfg) ht s
      rw [h1, h1'] at hk
      obtain ⟨k1, rfl⟩ := hk
      obtain ⟨i1, i2, i3⟩ := ih h2' k1 he.2
      exact ⟨by rw [e1, e2, i1], i2, i3⟩
  | @foreign br br1 br2 s s2 tr h1 h2 ih =>
    intro br' b2 s2' tr' h' ht he
    exact ih h' (fun k => (h1 k).trans (ht k)) he

end Zdb
