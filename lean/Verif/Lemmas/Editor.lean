/-
The namespace editor: options, and the next start of the server.
-/
import Verif.Spec.Editor
import Verif.Lemmas.Settings
import Verif.Lemmas.Integrity
namespace Zdb.Editor

theorem atoll_digits {n : Nat} (hn : n < 2 ^ 63) : atoll (Resp.digits n) = (n : Int) := by
  obtain ⟨d, ds, h1, h2, h3⟩ := Resp.digits_head n
  have hsk : atollSkip (Resp.digits n) = Resp.digits n := by
    rw [h1, atollSkip, if_neg]
    rintro (h | h)
    · subst h; exact absurd h2 (by decide)
    · exact absurd (UInt8.le_trans h2 h.2) (by decide)
  have h45 : d ≠ 45 := fun h => by subst h; exact absurd h2 (by decide)
  have h43 : d ≠ 43 := fun h => by subst h; exact absurd h2 (by decide)
  unfold atoll
  rw [hsk]
  have : (min n (2 ^ 63 - 1) : Nat) = n := by omega
  split
  · rename_i h; rw [h1] at h; injection h with h _; exact absurd h h45
  · rename_i h; rw [h1] at h; injection h with h _; exact absurd h h43
  · rw [Resp.atollDigits_digits, this]

theorem lastOf_cons {α : Type} (f : EdOpt → Option α) (o : EdOpt) (os : List EdOpt) :
    lastOf f (o :: os) = (lastOf f os).or (f o) := by
  unfold lastOf
  rw [List.filterMap_cons]
  cases hf : f o with
  | none => simp
  | some x =>
    simp only
    cases hl : os.filterMap f with
    | nil => simp
    | cons y l => simp [List.getLast?_cons]

theorem yes_eq : wordYes = yesNo true := rfl
theorem no_eq : wordNo = yesNo false := rfl

theorem yesNo_inj {a b : Bool} (h : yesNo a = yesNo b) : a = b := by
  cases a <;> cases b <;> simp [yesNo] at h ⊢

/-- What the loop over the options gives. -/
theorem takeAll_eq (a : EdArgs) (os : List EdOpt)
    (h : ∀ o ∈ os, (∀ v, publicOf o = some v ∨ wormOf o = some v → ∃ b, v = yesNo b) ∧ o ≠ .other) :
    a.takeAll os = some
      { ns := (lastOf nsOf os).or a.ns, password := (lastOf passwordOf os).or a.password
        maxsize := ((lastOf maxsizeOf os).map (fun v => (atoll v % 2 ^ 64).toNat)).getD a.maxsize
        isPublic := ((lastOf publicOf os).map (fun v => decide (v = wordYes))).getD a.isPublic
        worm := ((lastOf wormOf os).map (fun v => decide (v = wordYes))).getD a.worm } := by
  induction os generalizing a with
  | nil => rfl
  | cons o os ih =>
    have ho := h o (List.mem_cons_self ..)
    have ih := fun a => ih a (fun o ho => h o (List.mem_cons_of_mem _ ho))
    have hne : wordNo ≠ wordYes := by decide
    simp only [lastOf_cons]
    cases o with
    | ns v =>
      simp only [EdArgs.takeAll, EdArgs.take]
      rw [ih]
      cases lastOf nsOf os <;> simp [nsOf, passwordOf, maxsizeOf, publicOf, wormOf]
    | password v =>
      simp only [EdArgs.takeAll, EdArgs.take]
      rw [ih]
      cases lastOf passwordOf os <;> simp [nsOf, passwordOf, maxsizeOf, publicOf, wormOf]
    | maxsize v =>
      simp only [EdArgs.takeAll, EdArgs.take]
      rw [ih]
      cases lastOf maxsizeOf os <;> simp [nsOf, passwordOf, maxsizeOf, publicOf, wormOf]
    | isPublic v =>
      obtain ⟨b, rfl⟩ := ho.1 v (Or.inl rfl)
      cases b <;>
      · simp only [EdArgs.takeAll, EdArgs.take, ← yes_eq, ← no_eq, if_neg hne, if_true]
        rw [ih]
        cases lastOf publicOf os <;> simp [nsOf, passwordOf, maxsizeOf, publicOf, wormOf, hne]
    | worm v =>
      obtain ⟨b, rfl⟩ := ho.1 v (Or.inr rfl)
      cases b <;>
      · simp only [EdArgs.takeAll, EdArgs.take, ← yes_eq, ← no_eq, if_neg hne, if_true]
        rw [ih]
        cases lastOf wormOf os <;> simp [nsOf, passwordOf, maxsizeOf, publicOf, wormOf, hne]
    | other => exact absurd rfl ho.2

/-- The settings that the server reads after the tool has run. -/
theorem Says.loaded {os : List EdOpt} {name : Bytes} {q : Asked} (h : Says os name q) :
    ∃ a, EdArgs.start.takeAll os = some a ∧ a.ns = some name ∧ ((a.password).getD []).length < 256 ∧
      loadedConf name (a.conf name) = wanted q name := by
  refine ⟨_, takeAll_eq _ _ h.flags, ?_, ?_, ?_⟩
  · rw [h.ns]; rfl
  · simp only [h.password, EdArgs.start]
    cases hp : q.password with
    | none => simp
    | some p => have := (h.pass p hp).2; simp; omega
  · simp only [loadedConf, EdArgs.conf, wanted, defaultConf, EdArgs.start, h.password, h.maxsize, h.isPublic, h.worm]
    congr 1
    · cases hp : q.password with
      | none => rfl
      | some p =>
        cases p with
        | nil => rfl
        | cons b p =>
          simp only [loadedPass, Option.or_some, Option.getD_some]
          rw [if_neg (by simp)]
          exact congrArg some (cstr_eq (h.pass _ hp).1)
    · cases hb : q.isPublic with
      | none => rfl
      | some b => cases b <;> rfl
    · cases hb : q.worm with
      | none => rfl
      | some b => cases b <;> rfl
    · cases hm : q.maxsize with
      | none => rfl
      | some k =>
        have hk := h.size k hm
        simp only [Option.map_some, Option.getD_some]
        rw [atoll_digits hk]
        omega

/-- A record as the next start makes it, after the edit. -/
def renew (a : EdArgs) (name : Bytes) (r : NsRec) : NsRec :=
  if r.conf.name = name then
    { r with conf := loadedConf name (a.conf name), desc := pwrite r.desc 0 (encDesc (a.conf name)) }
  else r

/-- A directory, edited. -/
def editDir (a : EdArgs) (name : Bytes) (d : Dir) : Dir :=
  if d.name = name then { d with desc := (editDesc a name d.desc).getD d.desc } else d

theorem editRec_dir (a : EdArgs) (name : Bytes) (r : NsRec) : (editRec a name r).dir = editDir a name r.dir := by
  unfold editRec editDir
  by_cases h : r.conf.name = name
  · rw [if_pos h, if_pos (show r.dir.name = name from h)]; rfl
  · rw [if_neg h, if_neg (show ¬ r.dir.name = name from h)]

theorem pwrite_zero (f b : Bytes) : pwrite f 0 b = b ++ f.drop b.length := by simp [pwrite]

theorem loadDesc_name {name desc : Bytes} {c : NsConf} {f : Bytes} (h : loadDesc name desc = some (c, f)) : c.name = name := by
  unfold loadDesc at h
  simp only at h
  split at h
  · simp only [Option.some.injEq, Prod.mk.injEq] at h; rw [← h.1]; rfl
  · split at h
    · simp at h
    · simp only [Option.some.injEq, Prod.mk.injEq] at h; rw [← h.1]; rfl

theorem edit_load {a : EdArgs} {name desc : Bytes} (hn : name.length < 256) (hp : (a.password.getD []).length < 256) :
    loadDesc name ((editDesc a name desc).getD desc) =
      (loadDesc name desc).map (fun x => (loadedConf name (a.conf name), pwrite x.2 0 (encDesc (a.conf name)))) := by
  unfold editDesc
  cases h : loadDesc name desc with
  | none => simpa using h
  | some x =>
    obtain ⟨c, f⟩ := x
    simp only [Option.getD_some, Option.map_some]
    rw [pwrite_zero, loadDesc_enc name (a.conf name) _ hn hp]

/-- Result of loading directories, with the records changed. -/
def BootRes.map (g : NsRec → NsRec) : BootRes → BootRes
  | .ok br l => .ok br (l.map g)
  | .exit => .exit
  | .ub => .ub

theorem loadDirs_edit {S : Settings} {a : EdArgs} {name : Bytes} (hn : name.length < 256) (hp : (a.password.getD []).length < 256)
    (br : Branches) (ds : List Dir) :
    loadDirs S br (ds.map (editDir a name)) = BootRes.map (renew a name) (loadDirs S br ds) := by
  induction ds generalizing br with
  | nil => rfl
  | cons d ds ih =>
    rw [List.map_cons, loadDirs, loadDirs]
    by_cases hd : d.name = name
    · have e : editDir a name d = { d with desc := (editDesc a name d.desc).getD d.desc } := if_pos hd
      rw [e]
      simp only [hd]
      rw [edit_load hn hp]
      cases hl : loadDesc name d.desc with
      | none => simpa using ih br
      | some x =>
        obtain ⟨c, f⟩ := x
        simp only [Option.map_some]
        cases hns : loadNs S.cfg br d.uid d.ifiles d.dfiles with
        | ok br1 s =>
          simp only
          rw [ih]
          cases loadDirs S br1 ds with
          | ok br2 l => simp [BootRes.map, renew, loadDesc_name hl]
          | exit => rfl
          | ub => rfl
        | exit => rfl
        | ub => rfl
    · have e : editDir a name d = d := if_neg hd
      rw [e]
      cases hl : loadDesc d.name d.desc with
      | none => simpa using ih br
      | some x =>
        obtain ⟨c, f⟩ := x
        simp only
        cases hns : loadNs S.cfg br d.uid d.ifiles d.dfiles with
        | ok br1 s =>
          simp only
          rw [ih]
          cases loadDirs S br1 ds with
          | ok br2 l => simp [BootRes.map, renew, loadDesc_name hl, hd]
          | exit => rfl
          | ub => rfl
        | exit => rfl
        | ub => rfl

/-- Whether a directory is loaded does not depend on the edit. -/
theorem boot_edit {S : Settings} {a : EdArgs} {name : Bytes} (hn : name.length < 256) (hp : (a.password.getD []).length < 256)
    (d : Dir) (ds : List Dir) {m : Node} (h : boot S d ds = some m) :
    ∃ r l, loadDirs S (fun _ => []) (d :: ds) = .ok m.br (r :: l) ∧
      m.slots = some { r with conf := startConf S r.conf } :: l.map some ∧
      ∃ m', boot S (editDir a name d) (ds.map (editDir a name)) = some m' ∧ m'.br = m.br ∧
        m'.slots = some { renew a name r with conf := startConf S (renew a name r).conf } :: (l.map (renew a name)).map some := by
  unfold boot at h
  cases hd : loadDesc d.name d.desc with
  | none => rw [hd] at h; simp at h
  | some x =>
    rw [hd] at h
    simp only at h
    have hd' : ∃ y, loadDesc (editDir a name d).name (editDir a name d).desc = some y := by
      unfold editDir
      split
      · rename_i e
        simp only [e]
        rw [edit_load hn hp, ← e, hd]
        exact ⟨_, rfl⟩
      · exact ⟨_, hd⟩
    obtain ⟨y, hy⟩ := hd'
    have hl := loadDirs_edit (S := S) hn hp (fun _ => []) (d :: ds)
    rw [List.map_cons] at hl
    cases hld : loadDirs S (fun _ => []) (d :: ds) with
    | ok br l =>
      rw [hld] at h hl
      cases l with
      | nil => simp at h
      | cons r l =>
        simp only [Option.some.injEq] at h
        subst h
        refine ⟨r, l, rfl, rfl, ?_⟩
        unfold boot
        rw [hy]
        simp only
        rw [hl]
        simp only [BootRes.map, List.map_cons]
        exact ⟨_, rfl, rfl, rfl⟩
    | exit => rw [hld] at h; simp at h
    | ub => rw [hld] at h; simp at h

theorem find_edit (a : EdArgs) (name : Bytes) (l : List NsRec) (u : Nat) :
    (l.map (editRec a name)).find? (fun r => r.uid == u) = (l.find? (fun r => r.uid == u)).map (editRec a name) := by
  induction l with
  | nil => rfl
  | cons r l ih =>
    have hu : (editRec a name r).uid = r.uid := by unfold editRec; split <;> rfl
    rw [List.map_cons, List.find?_cons, List.find?_cons, hu]
    split
    · rfl
    · exact ih

/-- The next start after an edit. -/
theorem restart_edit {S : Settings} {a : EdArgs} {name : Bytes} (hn : name.length < 256) (hp : (a.password.getD []).length < 256)
    {n m : Node} {order : List Nat} (h : restartNode S n order = some m) :
    ∃ r l, recs m = { r with conf := startConf S r.conf } :: l ∧
      ∃ m', restartNode S { n with slots := n.slots.map (Option.map (editRec a name)) } order = some m' ∧ m'.br = m.br ∧
        recs m' = { renew a name r with conf := startConf S (renew a name r).conf } :: l.map (renew a name) := by
  unfold restartNode at h ⊢
  cases hs : n.slots with
  | nil => rw [hs] at h; simp at h
  | cons x l =>
    cases x with
    | none => rw [hs] at h; simp at h
    | some d =>
      rw [hs] at h
      simp only at h
      obtain ⟨r, l', -, h2, m', h3, h4, h5⟩ := boot_edit (a := a) hn hp _ _ h
      refine ⟨r, l', ?_, m', ?_, h4, ?_⟩
      · unfold recs; rw [h2]; simp [List.filterMap_map]
      · simp only [List.map_cons, Option.map_some]
        rw [editRec_dir, ← h3]
        congr 1
        rw [List.map_filterMap]
        congr 1
        funext u
        have : (l.map (Option.map (editRec a name))).filterMap id = (l.filterMap id).map (editRec a name) := by
          rw [List.filterMap_map, List.map_filterMap]
          congr 1
        rw [this, find_edit]
        cases (l.filterMap id).find? (fun r => r.uid == u) with
        | none => rfl
        | some r => simp only [Option.map_some, editRec_dir]
      · unfold recs; rw [h5]; simp [List.filterMap_map]

end Zdb.Editor
