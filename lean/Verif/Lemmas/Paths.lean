/-
Resolution of paths: names added to a tree do not change what was found before, and a lock file is found through the
directory that holds it.
-/
import Verif.Model.Paths
namespace Zdb

/-- The second tree has everything of the first one. -/
def TreeGrows (fs fs' : Fs) : Prop :=
  ∀ n : Nat, (∀ t, fs[n]? = some (.link t) → fs'[n]? = some (.link t)) ∧ (fs[n]? = some .file → fs'[n]? = some .file) ∧
    (∀ par ents, fs[n]? = some (.dir par ents) → ∃ more, fs'[n]? = some (.dir par (ents ++ more)))

theorem TreeGrows.refl (fs : Fs) : TreeGrows fs fs :=
  fun _ => ⟨fun _ h => h, fun h => h, fun _ _ h => ⟨[], by simpa using h⟩⟩

theorem TreeGrows.trans {a b c : Fs} (h : TreeGrows a b) (h' : TreeGrows b c) : TreeGrows a c := by
  intro n
  refine ⟨fun t ht => (h' n).1 t ((h n).1 t ht), fun hf => (h' n).2.1 ((h n).2.1 hf), fun par ents hd => ?_⟩
  obtain ⟨m, hm⟩ := (h n).2.2 par ents hd
  obtain ⟨m', hm'⟩ := (h' n).2.2 par _ hm
  exact ⟨m ++ m', by rw [hm', List.append_assoc]⟩

theorem getElem?_addEnt {fs : Fs} {d par : Nat} {ents : List (Bytes × Nat)} (c : Bytes) (i : Inode)
    (hd : fs[d]? = some (.dir par ents)) (n : Nat) :
    (addEnt fs d c i)[n]? =
      if n = d then some (.dir par (ents ++ [(c, fs.length)])) else if n = fs.length then some i else fs[n]? := by
  have hlt : d < fs.length := by
    rcases Nat.lt_or_ge d fs.length with h | h
    · exact h
    · rw [List.getElem?_eq_none h] at hd
      exact absurd hd (by simp)
  unfold addEnt
  rw [hd]
  simp only []
  by_cases hn : n = d
  · subst hn
    rw [if_pos rfl, List.getElem?_append_left (by simpa using hlt), List.getElem?_set_self hlt]
  · rw [if_neg hn]
    by_cases hn' : n = fs.length
    · rw [if_pos hn', hn', List.getElem?_append_right (by simp)]
      simp
    · rw [if_neg hn']
      rcases Nat.lt_or_ge n fs.length with h | h
      · rw [List.getElem?_append_left (by simpa using h), List.getElem?_set_ne (by omega)]
      · rw [List.getElem?_eq_none h, List.getElem?_eq_none]
        simp
        omega

theorem treeGrows_addEnt (fs : Fs) (d : Nat) (c : Bytes) (i : Inode) : TreeGrows fs (addEnt fs d c i) := by
  rcases hd : fs[d]? with _ | (⟨par, ents⟩ | _ | t)
  · simp only [addEnt, hd]
    exact TreeGrows.refl _
  · intro n
    have hsome : ∀ x, fs[n]? = some x → n ≠ fs.length := by
      intro x hx hn
      rw [hn, List.getElem?_eq_none (Nat.le_refl _)] at hx
      exact absurd hx (by simp)
    rw [getElem?_addEnt c i hd]
    refine ⟨fun t ht => ?_, fun hf => ?_, fun par' ents' hd' => ?_⟩
    · by_cases hn : n = d
      · rw [hn, hd] at ht
        exact absurd ht (by simp)
      · rw [if_neg hn, if_neg (hsome _ ht), ht]
    · by_cases hn : n = d
      · rw [hn, hd] at hf
        exact absurd hf (by simp)
      · rw [if_neg hn, if_neg (hsome _ hf), hf]
    · by_cases hn : n = d
      · rw [hn, hd] at hd'
        injection hd' with hd'
        injection hd' with h1 h2
        subst h1 h2
        exact ⟨_, if_pos hn⟩
      · rw [if_neg hn, if_neg (hsome _ hd'), hd']
        exact ⟨[], by simp⟩
  · simp only [addEnt, hd]
    exact TreeGrows.refl _
  · simp only [addEnt, hd]
    exact TreeGrows.refl _

theorem entOf_append {ents : List (Bytes × Nat)} {c : Bytes} {n : Nat} (h : entOf ents c = some n)
    (more : List (Bytes × Nat)) : entOf (ents ++ more) c = some n := by
  unfold entOf at h ⊢
  rw [List.find?_append]
  rcases hf : ents.find? (fun e => e.1 == c) with _ | e
  · rw [hf] at h
    exact absurd h (by simp)
  · rw [hf] at h
    rw [hf]
    simpa using h

theorem entOf_append_new {ents : List (Bytes × Nat)} {c : Bytes} (h : entOf ents c = none) (n : Nat) :
    entOf (ents ++ [(c, n)]) c = some n := by
  unfold entOf at h ⊢
  rw [List.find?_append]
  rcases hf : ents.find? (fun e => e.1 == c) with _ | e
  · rw [hf]
    simp
  · rw [hf] at h
    exact absurd h (by simp)

/-- A step of the resolution that does not fail stays as it is. -/
theorem TreeGrows.hop {fs fs' : Fs} (h : TreeGrows fs fs') : ∀ (cs : List Bytes) (cur : Nat), Zdb.hop fs cur cs ≠ .fail →
    Zdb.hop fs' cur cs = Zdb.hop fs cur cs
  | [], _, _ => rfl
  | c :: cs, cur, hne => by
    rcases hd : fs[cur]? with _ | (⟨par, ents⟩ | _ | t)
    · simp only [Zdb.hop, hd] at hne
      exact absurd rfl hne
    · obtain ⟨more, hm⟩ := (h cur).2.2 _ _ hd
      simp only [Zdb.hop, hd] at hne
      simp only [Zdb.hop, hd, hm]
      by_cases h1 : c = [46]
      · rw [if_pos h1] at hne ⊢
        rw [if_pos h1]
        exact h.hop cs _ hne
      rw [if_neg h1] at hne ⊢
      rw [if_neg h1]
      by_cases h2 : c = [46, 46]
      · rw [if_pos h2] at hne ⊢
        rw [if_pos h2]
        exact h.hop cs _ hne
      rw [if_neg h2] at hne ⊢
      rw [if_neg h2]
      rcases he : entOf ents c with _ | n
      · rw [he] at hne
        exact absurd rfl hne
      rw [he] at hne
      rw [entOf_append he]
      simp only [] at hne ⊢
      rcases hn : fs[n]? with _ | (⟨par', ents'⟩ | _ | t)
      · rw [hn] at hne
        exact absurd rfl hne
      · obtain ⟨m', hm'⟩ := (h n).2.2 _ _ hn
        rw [hn] at hne
        rw [hm']
        exact h.hop cs _ hne
      · rw [hn] at hne
        rw [(h n).2.1 hn]
        exact h.hop cs _ hne
      · rw [(h n).1 _ hn]
    · simp only [Zdb.hop, hd] at hne
      exact absurd rfl hne
    · simp only [Zdb.hop, hd] at hne
      exact absurd rfl hne

theorem TreeGrows.walk {fs fs' : Fs} (h : TreeGrows fs fs') : ∀ (k cur : Nat) (cs : List Bytes) (n : Nat),
    walkPath fs k cur cs = some n → walkPath fs' k cur cs = some n
  | 0, cur, cs, n, hw => by
    unfold walkPath at hw ⊢
    have hne : Zdb.hop fs cur cs ≠ .fail := by
      intro hf
      rw [hf] at hw
      exact absurd hw (by simp)
    rw [h.hop cs cur hne]
    exact hw
  | k + 1, cur, cs, n, hw => by
    unfold walkPath at hw ⊢
    have hne : Zdb.hop fs cur cs ≠ .fail := by
      intro hf
      rw [hf] at hw
      exact absurd hw (by simp)
    rw [h.hop cs cur hne]
    rcases hh : Zdb.hop fs cur cs with m | ⟨d, cs'⟩ | _
    · rw [hh] at hw
      exact hw
    · rw [hh] at hw
      exact h.walk k d cs' n hw
    · exact absurd hh hne

theorem TreeGrows.lookup {fs fs' : Fs} (h : TreeGrows fs fs') {cwd : Nat} {p : Bytes} {n : Nat}
    (hl : Zdb.lookup fs cwd p = some n) : Zdb.lookup fs' cwd p = some n := by
  unfold Zdb.lookup at hl ⊢
  by_cases hp : p = []
  · rw [if_pos hp] at hl
    exact absurd hl (by simp)
  · rw [if_neg hp] at hl ⊢
    exact h.walk _ _ _ _ hl

theorem TreeGrows.isDir {fs fs' : Fs} (h : TreeGrows fs fs') {n : Nat} (hd : Zdb.isDir fs n = true) :
    Zdb.isDir fs' n = true := by
  unfold Zdb.isDir at hd ⊢
  rcases hn : fs[n]? with _ | (⟨par, ents⟩ | _ | t)
  · rw [hn] at hd
    exact absurd hd (by simp)
  · obtain ⟨m, hm⟩ := (h n).2.2 _ _ hn
    rw [hm]
  · rw [hn] at hd
    exact absurd hd (by simp)
  · rw [hn] at hd
    exact absurd hd (by simp)

theorem grows_mkdir (fs : Fs) (may : Bool) (cwd : Nat) (p : Bytes) : TreeGrows fs (mkdir fs may cwd p) := by
  unfold mkdir
  split
  · split
    · exact treeGrows_addEnt _ _ _ _
    · exact TreeGrows.refl _
  · exact TreeGrows.refl _

theorem grows_mkdirs (may : Bool) (cwd : Nat) : ∀ (l : List Bytes) (fs : Fs),
    TreeGrows fs (l.foldl (fun fs q => mkdir fs may cwd q) fs)
  | [], fs => TreeGrows.refl fs
  | q :: l, fs => (grows_mkdir fs may cwd q).trans (grows_mkdirs may cwd l _)

theorem grows_dirCreate {fs fs' : Fs} {may : Bool} {cwd : Nat} {p : Bytes} (h : dirCreate fs may cwd p = some fs') :
    TreeGrows fs fs' := by
  unfold dirCreate at h
  by_cases hp : p.take 4095 = []
  · simp only [if_pos hp] at h
    exact absurd h (by simp)
  · simp only [if_neg hp, Option.some.injEq] at h
    rw [← h]
    exact (grows_mkdirs may cwd _ fs).trans (grows_mkdir _ may cwd _)

/-! Names behind names -/

/-- More names behind what was resolved. -/
def Hop.more (fs : Fs) (es : List Bytes) : Hop → Hop
  | .done d => hop fs d es
  | .jump d cs => .jump d (cs ++ es)
  | .fail => .fail

theorem hop_append (fs : Fs) (es : List Bytes) : ∀ (cs : List Bytes) (cur : Nat),
    hop fs cur (cs ++ es) = (hop fs cur cs).more fs es
  | [], _ => rfl
  | c :: cs, cur => by
    rcases hd : fs[cur]? with _ | (⟨par, ents⟩ | _ | t)
    · simp only [List.cons_append, hop, hd, Hop.more]
    · simp only [List.cons_append, hop, hd]
      by_cases h1 : c = [46]
      · simp only [if_pos h1]
        exact hop_append fs es cs _
      simp only [if_neg h1]
      by_cases h2 : c = [46, 46]
      · simp only [if_pos h2]
        exact hop_append fs es cs _
      simp only [if_neg h2]
      rcases he : entOf ents c with _ | n
      · rfl
      simp only []
      rcases hn : fs[n]? with _ | (⟨par', ents'⟩ | _ | t)
      · rfl
      · exact hop_append fs es cs _
      · exact hop_append fs es cs _
      · simp only [Hop.more, List.append_assoc]
    · simp only [List.cons_append, hop, hd, Hop.more]
    · simp only [List.cons_append, hop, hd, Hop.more]

/-- More links allowed do no harm. -/
theorem walkPath_succ (fs : Fs) : ∀ (k cur : Nat) (cs : List Bytes) (n : Nat),
    walkPath fs k cur cs = some n → walkPath fs (k + 1) cur cs = some n
  | 0, cur, cs, n, h => by
    unfold walkPath at h ⊢
    rcases hh : hop fs cur cs with m | ⟨d, cs'⟩ | _
    · rw [hh] at h
      exact h
    · rw [hh] at h
      exact absurd h (by simp)
    · rw [hh] at h
      exact absurd h (by simp)
  | k + 1, cur, cs, n, h => by
    unfold walkPath at h ⊢
    rcases hh : hop fs cur cs with m | ⟨d, cs'⟩ | _
    · rw [hh] at h
      exact h
    · rw [hh] at h
      exact walkPath_succ fs k d cs' n h
    · rw [hh] at h
      exact absurd h (by simp)

theorem walkPath_le {fs : Fs} {k j cur : Nat} {cs : List Bytes} {n : Nat} (hkj : k ≤ j)
    (h : walkPath fs k cur cs = some n) : walkPath fs j cur cs = some n := by
  induction hkj with
  | refl => exact h
  | step _ ih => exact walkPath_succ _ _ _ _ _ ih

/-- What is found behind a directory is found from that directory. -/
theorem walkPath_split (fs : Fs) (es : List Bytes) : ∀ (k cur : Nat) (cs : List Bytes) (n : Nat),
    walkPath fs k cur (cs ++ es) = some n →
    ∃ d, walkPath fs k cur cs = some d ∧ ∃ j ≤ k, walkPath fs j d es = some n
  | 0, cur, cs, n, h => by
    unfold walkPath at h
    rw [hop_append] at h
    unfold walkPath
    rcases hh : hop fs cur cs with m | ⟨d, cs'⟩ | _
    · rw [hh] at h
      exact ⟨m, rfl, 0, Nat.le_refl _, h⟩
    · rw [hh] at h
      exact absurd h (by simp [Hop.more])
    · rw [hh] at h
      exact absurd h (by simp [Hop.more])
  | k + 1, cur, cs, n, h => by
    rw [walkPath] at h
    rw [hop_append] at h
    rw [walkPath]
    rcases hh : hop fs cur cs with m | ⟨d, cs'⟩ | _
    · rw [hh] at h
      refine ⟨m, rfl, k + 1, Nat.le_refl _, ?_⟩
      rw [walkPath]
      exact h
    · rw [hh] at h
      obtain ⟨d', h1, j, hj, h2⟩ := walkPath_split fs es k d cs' n h
      exact ⟨d', h1, j, by omega, h2⟩
    · rw [hh] at h
      exact absurd h (by simp [Hop.more])

/-- What is found from a directory without a link is found behind it. -/
theorem walkPath_join {fs : Fs} {es : List Bytes} {d n : Nat} (he : hop fs d es = .done n) :
    ∀ (k cur : Nat) (cs : List Bytes), walkPath fs k cur cs = some d → walkPath fs k cur (cs ++ es) = some n
  | 0, cur, cs, h => by
    unfold walkPath at h ⊢
    rw [hop_append]
    rcases hh : hop fs cur cs with m | ⟨d', cs'⟩ | _
    · rw [hh] at h
      injection h with h
      subst h
      simp only [Hop.more, he]
    · rw [hh] at h
      exact absurd h (by simp)
    · rw [hh] at h
      exact absurd h (by simp)
  | k + 1, cur, cs, h => by
    rw [walkPath] at h ⊢
    rw [hop_append]
    rcases hh : hop fs cur cs with m | ⟨d', cs'⟩ | _
    · rw [hh] at h
      injection h with h
      subst h
      simp only [Hop.more, he]
    · rw [hh] at h
      exact walkPath_join he k d' cs' h
    · rw [hh] at h
      exact absurd h (by simp)

/-- Only directories hold names. -/
theorem isDir_of_walk {fs : Fs} {d n : Nat} {c : Bytes} : ∀ {k : Nat}, walkPath fs k d [c] = some n →
    isDir fs d = true := by
  intro k h
  rcases hd : fs[d]? with _ | (⟨par, ents⟩ | _ | t)
  · cases k <;> simp [walkPath, hop, hd] at h
  · simp [isDir, hd]
  · cases k <;> simp [walkPath, hop, hd] at h
  · cases k <;> simp [walkPath, hop, hd] at h

/-! Names of a path -/

theorem pathParts_append_slash (q : Bytes) : ∀ (p acc : Bytes),
    pathParts acc (p ++ 47 :: q) = pathParts acc p ++ pathParts [] q
  | [], acc => by simp [pathParts]
  | b :: p, acc => by
    simp only [List.cons_append, pathParts]
    by_cases hb : b = 47
    · simp only [if_pos hb, pathParts_append_slash q p, List.append_assoc]
    · simp only [if_neg hb]
      exact pathParts_append_slash q p _

/-- `.lockfile` -/
def lockName : Bytes := [46, 108, 111, 99, 107, 102, 105, 108, 101]

theorem parts_lockPath {p : Bytes} (h : p.length ≤ 501) : parts (lockPath p) = parts p ++ [lockName] := by
  unfold lockPath parts
  rw [List.take_of_length_le (by simp; omega)]
  exact pathParts_append_slash _ _ _

theorem lockPath_ne (p : Bytes) : lockPath p ≠ [] := by
  unfold lockPath
  cases p <;> simp

theorem pathStart_lockPath {p : Bytes} (h : p ≠ []) (cwd : Nat) : pathStart cwd (lockPath p) = pathStart cwd p := by
  unfold lockPath pathStart
  cases p with
  | nil => exact absurd rfl h
  | cons b p => simp

/-- The lock file of a path lies in the directory the path leads to. -/
theorem lookup_lockPath {fs : Fs} {cwd : Nat} {p : Bytes} {n : Nat} (hp : p ≠ []) (hlen : p.length ≤ 501)
    (h : lookup fs cwd (lockPath p) = some n) :
    ∃ d, lookup fs cwd p = some d ∧ isDir fs d = true ∧ walkPath fs 40 d [lockName] = some n := by
  unfold lookup at h ⊢
  rw [if_neg (lockPath_ne p), parts_lockPath hlen, pathStart_lockPath hp] at h
  rw [if_neg hp]
  obtain ⟨d, h1, j, hj, h2⟩ := walkPath_split fs _ _ _ _ _ h
  exact ⟨d, h1, isDir_of_walk h2, walkPath_le hj h2⟩

/-- The file opened is the one the path leads to afterwards, and nothing got lost. -/
theorem openLock_lookup {fs fs' : Fs} {may : Bool} {cwd : Nat} {p : Bytes} {n : Nat} (hp : p ≠ [])
    (h : openLock fs may cwd p = some (fs', n)) :
    lookup fs' cwd p = some n ∧ TreeGrows fs fs' := by
  unfold openLock at h
  rcases hl : lookup fs cwd p with _ | m
  · rw [hl] at h
    simp only [] at h
    rcases hpar : dirOfPath fs cwd p with _ | ⟨d, c⟩
    · rw [hpar] at h
      exact absurd h (by simp)
    rw [hpar] at h
    simp only [] at h
    cases may with
    | false => exact absurd h (by simp)
    | true =>
    simp only [if_true, Option.some.injEq, Prod.mk.injEq] at h
    obtain ⟨h1, h2⟩ := h
    subst h1 h2
    refine ⟨?_, treeGrows_addEnt _ _ _ _⟩
    unfold dirOfPath at hpar
    rcases hlast : (parts p).getLast? with _ | c'
    · rw [hlast] at hpar
      exact absurd hpar (by simp)
    rw [hlast] at hpar
    simp only [] at hpar
    rcases hw : walkPath fs 40 (pathStart cwd p) (parts p).dropLast with _ | d'
    · rw [hw] at hpar
      exact absurd hpar (by simp)
    rw [hw] at hpar
    simp only [] at hpar
    rcases hd : fs[d']? with _ | (⟨par, ents⟩ | _ | t)
    · rw [hd] at hpar
      exact absurd hpar (by simp)
    · rw [hd] at hpar
      simp only [] at hpar
      by_cases hc : c' = [46] ∨ c' = [46, 46] ∨ (entOf ents c').isSome
      · rw [if_pos hc] at hpar
        exact absurd hpar (by simp)
      rw [if_neg hc] at hpar
      simp only [Option.some.injEq, Prod.mk.injEq] at hpar
      obtain ⟨h1, h2⟩ := hpar
      subst h1 h2
      have hc1 : c' ≠ [46] := fun e => hc (.inl e)
      have hc2 : c' ≠ [46, 46] := fun e => hc (.inr (.inl e))
      have hc3 : entOf ents c' = none := by
        rcases he : entOf ents c' with _ | x
        · rfl
        · exact absurd (.inr (.inr (by simp [he]))) hc
      have hhop : hop (addEnt fs d' c' .file) d' [c'] = .done fs.length := by
        have e1 := getElem?_addEnt c' .file hd d'
        rw [if_pos rfl] at e1
        have e2 := getElem?_addEnt c' .file hd fs.length
        have hlt : fs.length ≠ d' := by
          intro e
          rw [← e, List.getElem?_eq_none (Nat.le_refl _)] at hd
          exact absurd hd (by simp)
        rw [if_neg hlt, if_pos rfl] at e2
        simp only [hop, e1, if_neg hc1, if_neg hc2, entOf_append_new hc3, e2]
      unfold lookup
      rw [if_neg hp]
      have hsplit : parts p = (parts p).dropLast ++ [c'] := by
        have hne : parts p ≠ [] := by
          intro e
          rw [e] at hlast
          exact absurd hlast (by simp)
        rw [List.getLast?_eq_some_getLast hne] at hlast
        injection hlast with hlast
        rw [← hlast, List.dropLast_concat_getLast]
      rw [hsplit]
      exact walkPath_join hhop _ _ _ ((treeGrows_addEnt _ _ _ _).walk _ _ _ _ hw)
    · rw [hd] at hpar
      exact absurd hpar (by simp)
    · rw [hd] at hpar
      exact absurd hpar (by simp)
  · rw [hl] at h
    simp only [] at h
    cases hd : isDir fs m with
    | true =>
      rw [hd] at h
      exact absurd h (by simp)
    | false =>
      rw [hd] at h
      simp only [Bool.false_eq_true, if_false, Option.some.injEq, Prod.mk.injEq] at h
      obtain ⟨h1, h2⟩ := h
      subst h1 h2
      exact ⟨hl, TreeGrows.refl _⟩

end Zdb
