/-
The tree of directories: `realpath` names a directory, and a path that exists is not created again.
-/
import Verif.Lemmas.Locks
namespace Zdb

/-- Every directory but the root is found in its parent; names are unique and none is `.` or `..`. -/
structure FsWF (fs : Fs) : Prop where
  root : ∃ ents, fs[0]? = some (.dir 0 ents)
  up : ∀ (n par : Nat) (ents : List (Bytes × Nat)), fs[n]? = some (.dir par ents) → n ≠ 0 →
    par < n ∧ ∃ pp es c, fs[par]? = some (.dir pp es) ∧ (c, n) ∈ es
  names : ∀ (n par : Nat) (ents : List (Bytes × Nat)), fs[n]? = some (.dir par ents) →
    (ents.map (·.1)).Nodup ∧ ∀ e ∈ ents, e.1 ≠ [46] ∧ e.1 ≠ [46, 46]

theorem lt_of_getElem? {fs : Fs} {n : Nat} {x : Inode} (h : fs[n]? = some x) : n < fs.length := by
  rcases Nat.lt_or_ge n fs.length with h' | h'
  · exact h'
  · rw [List.getElem?_eq_none h'] at h
    exact absurd h (by simp)

theorem not_mem_of_entOf {ents : List (Bytes × Nat)} {c : Bytes} (h : entOf ents c = none) : c ∉ ents.map (·.1) := by
  intro hm
  obtain ⟨e, he, hc⟩ := List.mem_map.1 hm
  unfold entOf at h
  simp only [Option.map_eq_none_iff, List.find?_eq_none] at h
  exact h e he (by simp [hc])

theorem entOf_of_mem : ∀ {ents : List (Bytes × Nat)} {e : Bytes × Nat}, (ents.map (·.1)).Nodup → e ∈ ents →
    entOf ents e.1 = some e.2
  | [], _, _, h => absurd h (by simp)
  | x :: l, e, hn, h => by
    simp only [List.map_cons, List.nodup_cons] at hn
    unfold entOf
    rcases List.mem_cons.1 h with he | he
    · rw [he, List.find?_cons_of_pos (by simp)]
      rfl
    · have hx : x.1 ≠ e.1 := fun h' => hn.1 (List.mem_map.2 ⟨e, he, h'.symm⟩)
      rw [List.find?_cons_of_neg (by simpa using hx)]
      exact entOf_of_mem hn.2 he

theorem FsWF.addEnt {fs : Fs} (h : FsWF fs) {d par : Nat} {ents : List (Bytes × Nat)} {c : Bytes} {i : Inode}
    (hd : fs[d]? = some (.dir par ents)) (hc : entOf ents c = none) (hc1 : c ≠ [46]) (hc2 : c ≠ [46, 46])
    (hi : i.fresh d = true) : FsWF (addEnt fs d c i) := by
  have hlt := lt_of_getElem? hd
  -- every old directory is still there, perhaps with one more name
  have hg := treeGrows_addEnt fs d c i
  refine ⟨?_, ?_, ?_⟩
  · obtain ⟨es, he⟩ := h.root
    obtain ⟨m, hm⟩ := (hg 0).2.2 _ _ he
    exact ⟨_, hm⟩
  · intro n p es hn hn0
    rw [getElem?_addEnt c i hd] at hn
    by_cases hnd : n = d
    · rw [if_pos hnd] at hn
      injection hn with hn
      injection hn with e1 e2
      subst e1
      rw [hnd] at hn0 ⊢
      obtain ⟨h1, pp, es', c', h2, h3⟩ := h.up d _ _ hd hn0
      obtain ⟨m, hm⟩ := (hg _).2.2 _ _ h2
      exact ⟨h1, pp, _, c', hm, List.mem_append_left _ h3⟩
    · rw [if_neg hnd] at hn
      by_cases hnl : n = fs.length
      · rw [if_pos hnl] at hn
        injection hn with hn
        rw [hn] at hi
        simp only [Inode.fresh, Bool.and_eq_true, decide_eq_true_eq] at hi
        rw [hi.1, hnl]
        refine ⟨hlt, par, ents ++ [(c, fs.length)], c, ?_, List.mem_append_right _ (List.mem_singleton.2 rfl)⟩
        rw [getElem?_addEnt c i hd, if_pos rfl]
      · rw [if_neg hnl] at hn
        obtain ⟨h1, pp, es', c', h2, h3⟩ := h.up n _ _ hn hn0
        obtain ⟨m, hm⟩ := (hg _).2.2 _ _ h2
        exact ⟨h1, pp, _, c', hm, List.mem_append_left _ h3⟩
  · intro n p es hn
    rw [getElem?_addEnt c i hd] at hn
    by_cases hnd : n = d
    · rw [if_pos hnd] at hn
      injection hn with hn
      injection hn with e1 e2
      subst e2
      obtain ⟨h1, h2⟩ := h.names d _ _ hd
      refine ⟨?_, fun e he => ?_⟩
      · rw [List.map_append, List.nodup_append]
        refine ⟨h1, by simp, fun a ha b hb => ?_⟩
        intro hab
        rw [hab] at ha
        simp only [List.map_cons, List.map_nil, List.mem_singleton] at hb
        rw [hb] at ha
        exact not_mem_of_entOf hc ha
      · rcases List.mem_append.1 he with he | he
        · exact h2 e he
        · rw [List.mem_singleton.1 he]
          exact ⟨hc1, hc2⟩
    · rw [if_neg hnd] at hn
      by_cases hnl : n = fs.length
      · rw [if_pos hnl] at hn
        injection hn with hn
        rw [hn] at hi
        simp only [Inode.fresh, Bool.and_eq_true, decide_eq_true_eq, List.isEmpty_iff] at hi
        rw [hi.2]
        exact ⟨by simp, fun e he => absurd he (by simp)⟩
      · rw [if_neg hnl] at hn
        exact h.names n _ _ hn

/-- What `dirOfPath` answers. -/
theorem dirOfPath_some {fs : Fs} {cwd : Nat} {p : Bytes} {d : Nat} {c : Bytes} (h : dirOfPath fs cwd p = some (d, c)) :
    (parts p).getLast? = some c ∧ walkPath fs 40 (pathStart cwd p) (parts p).dropLast = some d ∧
      ∃ par ents, fs[d]? = some (.dir par ents) ∧ entOf ents c = none ∧ c ≠ [46] ∧ c ≠ [46, 46] := by
  unfold dirOfPath at h
  rcases hlast : (parts p).getLast? with _ | c'
  · rw [hlast] at h
    exact absurd h (by simp)
  rw [hlast] at h
  simp only [] at h
  rcases hw : walkPath fs 40 (pathStart cwd p) (parts p).dropLast with _ | d'
  · rw [hw] at h
    exact absurd h (by simp)
  rw [hw] at h
  simp only [] at h
  rcases hd : fs[d']? with _ | (⟨par, ents⟩ | _ | t)
  · rw [hd] at h
    exact absurd h (by simp)
  · rw [hd] at h
    simp only [] at h
    by_cases hc : c' = [46] ∨ c' = [46, 46] ∨ (entOf ents c').isSome
    · rw [if_pos hc] at h
      exact absurd h (by simp)
    rw [if_neg hc] at h
    simp only [Option.some.injEq, Prod.mk.injEq] at h
    obtain ⟨h1, h2⟩ := h
    subst h1 h2
    refine ⟨rfl, rfl, par, ents, hd, ?_, fun e => hc (.inl e), fun e => hc (.inr (.inl e))⟩
    rcases he : entOf ents c' with _ | x
    · rfl
    · exact absurd (.inr (.inr (by simp [he]))) hc
  · rw [hd] at h
    exact absurd h (by simp)
  · rw [hd] at h
    exact absurd h (by simp)

theorem FsWF.mkdir {fs : Fs} (h : FsWF fs) (may : Bool) (cwd : Nat) (p : Bytes) : FsWF (mkdir fs may cwd p) := by
  unfold Zdb.mkdir
  split
  · rename_i d c hp
    obtain ⟨_, _, par, ents, hd, he, h1, h2⟩ := dirOfPath_some hp
    split
    · exact h.addEnt hd he h1 h2 (by simp [Inode.fresh])
    · exact h
  · exact h

theorem FsWF.mkdirs (may : Bool) (cwd : Nat) : ∀ (l : List Bytes) {fs : Fs}, FsWF fs →
    FsWF (l.foldl (fun fs q => Zdb.mkdir fs may cwd q) fs)
  | [], _, h => h
  | q :: l, _, h => FsWF.mkdirs may cwd l (h.mkdir may cwd q)

theorem FsWF.dirCreate {fs fs' : Fs} (h : FsWF fs) {may : Bool} {cwd : Nat} {p : Bytes}
    (hc : dirCreate fs may cwd p = some fs') : FsWF fs' := by
  unfold Zdb.dirCreate at hc
  by_cases hp : p.take 4095 = []
  · simp only [if_pos hp] at hc
    exact absurd hc (by simp)
  · simp only [if_neg hp, Option.some.injEq] at hc
    rw [← hc]
    exact (FsWF.mkdirs may cwd _ h).mkdir may cwd _

theorem FsWF.openLock {fs fs' : Fs} (h : FsWF fs) {may : Bool} {cwd : Nat} {p : Bytes} {n : Nat}
    (ho : openLock fs may cwd p = some (fs', n)) : FsWF fs' := by
  unfold Zdb.openLock at ho
  split at ho
  · split at ho
    · exact absurd ho (by simp)
    · simp only [Option.some.injEq, Prod.mk.injEq] at ho
      rw [← ho.1]
      exact h
  · split at ho
    · rename_i d c hp
      obtain ⟨_, _, par, ents, hd, he, h1, h2⟩ := dirOfPath_some hp
      split at ho
      · simp only [Option.some.injEq, Prod.mk.injEq] at ho
        rw [← ho.1]
        exact h.addEnt hd he h1 h2 rfl
      · exact absurd ho (by simp)
    · exact absurd ho (by simp)

/-- The tree after a step. -/
def Went.fs : Went → Option Fs
  | .on w => some w.fs
  | .refused fs => some fs
  | .ub => none

theorem FsWF.zdbLock {w : World} (h : FsWF w.fs) {l : Luck} {pid cwd : Nat} {p : Bytes} {fs : Fs}
    (hf : (zdbLock w l pid cwd p).fs = some fs) : FsWF fs := by
  unfold Zdb.zdbLock at hf
  split at hf
  · injection hf with hf
    rw [← hf]
    exact h
  · rename_i fs' n ho
    have := h.openLock ho
    split at hf
    · injection hf with hf
      rw [← hf]
      exact this
    · split at hf
      · injection hf with hf
        rw [← hf]
        exact this
      · injection hf with hf
        rw [← hf]
        exact this

theorem FsWF.openStep {w : World} (h : FsWF w.fs) {l : Luck} {q : Proc} {fs : Fs}
    (hf : (openStep w l q).fs = some fs) : FsWF fs := by
  unfold Zdb.openStep at hf
  have hsame : ∀ {x : Fs}, some w.fs = some x → FsWF x := fun e => by
    injection e with e
    rw [← e]
    exact h
  split at hf
  · split at hf
    · exact hsame hf
    · split at hf
      · exact absurd hf (by simp [Went.fs])
      · rename_i hc
        injection hf with hf
        rw [← hf]
        exact h.dirCreate hc
  · split at hf
    · exact hsame hf
    · split at hf
      · exact absurd hf (by simp [Went.fs])
      · rename_i hc
        injection hf with hf
        rw [← hf]
        exact h.dirCreate hc
  · split at hf
    · split at hf
      · exact hsame hf
      · exact hsame hf
    · exact absurd hf (by simp [Went.fs])
  · exact h.zdbLock hf
  · exact h.zdbLock hf
  · exact hsame hf

theorem FsWF.act {w w' : World} {a : Act} (h : FsWF w.fs) (ha : Zdb.act w a = .now w') : FsWF w'.fs := by
  cases a with
  | spawn pid cwd index data =>
    simp only [Zdb.act] at ha
    split at ha
    · injection ha with ha
      subst ha
      exact h
    · exact absurd ha (by simp)
  | step pid l =>
    simp only [Zdb.act] at ha
    split at ha
    · exact absurd ha (by simp)
    · split at ha
      · rename_i ho
        injection ha with ha
        subst ha
        exact h.openStep (by rw [ho]; rfl)
      · rename_i ho
        injection ha with ha
        subst ha
        exact h.openStep (by rw [ho]; rfl)
      · exact absurd ha (by simp)
  | hook pid child =>
    simp only [Zdb.act] at ha
    split at ha
    · injection ha with ha
      subst ha
      exact h
    · exact absurd ha (by simp)
  | quit pid =>
    simp only [Zdb.act] at ha
    injection ha with ha
    subst ha
    exact h
  | create d c i =>
    simp only [Zdb.act] at ha
    split at ha
    · rename_i par ents hd
      split at ha
      · rename_i hc
        injection ha with ha
        subst ha
        simp only [properName, Bool.and_eq_true, Option.isNone_iff_eq_none, bne_iff_ne, ne_eq] at hc
        exact h.addEnt hd hc.1.2 hc.1.1.1.2 hc.1.1.2 hc.2
      · exact absurd ha (by simp)
    · exact absurd ha (by simp)

theorem FsWF.boot : FsWF bootWorld.fs := by
  refine ⟨⟨[], rfl⟩, fun n par ents hn h0 => ?_, fun n par ents hn => ?_⟩
  · have := lt_of_getElem? hn
    simp only [bootWorld, List.length_cons, List.length_nil] at this
    omega
  · have h0 : n = 0 := by
      have := lt_of_getElem? hn
      simp only [bootWorld, List.length_cons, List.length_nil] at this
      omega
    rw [h0] at hn
    simp only [bootWorld, List.getElem?_cons_zero, Option.some.injEq, Inode.dir.injEq] at hn
    rw [← hn.2]
    exact ⟨by simp, fun e he => absurd he (by simp)⟩

theorem FsWF.acts : ∀ {l : List Act} {w w' : World}, FsWF w.fs → Zdb.acts w l = .now w' → FsWF w'.fs
  | [], w, w', h, ha => by
    simp only [Zdb.acts] at ha
    injection ha with ha
    subst ha
    exact h
  | a :: l, w, w', h, ha => by
    simp only [Zdb.acts] at ha
    rcases ho : Zdb.act w a with w1 | _ | _
    · rw [ho] at ha
      exact (h.act ho).acts ha
    · rw [ho] at ha
      exact absurd ha (by simp)
    · rw [ho] at ha
      exact absurd ha (by simp)

/-- The names from the root lead to the directory. -/
theorem FsWF.namesOf {fs : Fs} (h : FsWF fs) : ∀ (fuel n : Nat), n < fuel → isDir fs n = true →
    ∃ l, namesOf fs fuel n = some l ∧ hop fs 0 l = .done n
  | 0, _, hlt, _ => absurd hlt (by omega)
  | fuel + 1, n, hlt, hd => by
    by_cases h0 : n = 0
    · rw [Zdb.namesOf, if_pos h0, h0]
      exact ⟨[], rfl, rfl⟩
    · unfold isDir at hd
      rcases hn : fs[n]? with _ | (⟨par, ents⟩ | _ | t)
      · rw [hn] at hd
        exact absurd hd (by simp)
      · obtain ⟨h1, pp, es, c, h2, h3⟩ := h.up n _ _ hn h0
        obtain ⟨l, hl, hh⟩ := FsWF.namesOf h fuel par (by omega) (by simp [isDir, h2])
        rw [Zdb.namesOf, if_neg h0, hn]
        simp only [h2, hl]
        rcases hf : es.find? (fun e => e.2 == n) with _ | e
        · rw [List.find?_eq_none] at hf
          exact absurd (hf _ h3) (by simp)
        · have he := List.mem_of_find?_eq_some hf
          have he2 : e.2 = n := by simpa using List.find?_some hf
          obtain ⟨hnd, hdots⟩ := h.names par _ _ h2
          refine ⟨l ++ [e.1], by rw [hf], ?_⟩
          rw [hop_append, hh]
          simp only [Hop.more, hop, h2, if_neg (hdots e he).1, if_neg (hdots e he).2, entOf_of_mem hnd he, he2, hn]
      · rw [hn] at hd
        exact absurd hd (by simp)
      · rw [hn] at hd
        exact absurd hd (by simp)

/-- `realpath` tells two directories apart. -/
theorem FsWF.realName {fs : Fs} (h : FsWF fs) {n m : Nat} (hn : isDir fs n = true) (hm : isDir fs m = true)
    (he : realName fs n = realName fs m) : n = m := by
  have key : ∀ {k : Nat}, isDir fs k = true → Zdb.realName fs k = (Zdb.namesOf fs (fs.length + 1) k, none) ∧
      k < fs.length + 1 := by
    intro k hk
    unfold isDir at hk
    rcases hx : fs[k]? with _ | (⟨par, ents⟩ | _ | t)
    · rw [hx] at hk
      exact absurd hk (by simp)
    · have := lt_of_getElem? hx
      exact ⟨by simp [Zdb.realName, hx], by omega⟩
    · rw [hx] at hk
      exact absurd hk (by simp)
    · rw [hx] at hk
      exact absurd hk (by simp)
  obtain ⟨e1, l1⟩ := key hn
  obtain ⟨e2, l2⟩ := key hm
  obtain ⟨a, ha, ha'⟩ := h.namesOf _ n l1 hn
  obtain ⟨b, hb, hb'⟩ := h.namesOf _ m l2 hm
  rw [e1, e2, ha, hb] at he
  simp only [Prod.mk.injEq, Option.some.injEq, and_true] at he
  rw [he, hb'] at ha'
  injection ha' with ha'
  exact ha'.symm

/-! What exists is not created again -/

/-- `mkdir` of a path that leads somewhere does nothing. -/
theorem mkdir_existing {fs : Fs} {cwd : Nat} {p : Bytes} {n : Nat}
    (h : walkPath fs 40 (pathStart cwd p) (parts p) = some n) (may : Bool) : mkdir fs may cwd p = fs := by
  unfold mkdir
  split
  · rename_i d c hp
    obtain ⟨h1, h2, par, ents, h3, h4, h5, h6⟩ := dirOfPath_some hp
    have hsplit : parts p = (parts p).dropLast ++ [c] := by
      have hne : parts p ≠ [] := by
        intro e
        rw [e] at h1
        exact absurd h1 (by simp)
      rw [List.getLast?_eq_some_getLast hne] at h1
      injection h1 with h1
      rw [← h1, List.dropLast_concat_getLast]
    rw [hsplit] at h
    obtain ⟨d', e1, j, _, e2⟩ := walkPath_split fs _ _ _ _ _ h
    rw [h2] at e1
    injection e1 with e1
    rw [← e1] at e2
    have hf : hop fs d [c] = .fail := by simp only [hop, h3, if_neg h5, if_neg h6, h4]
    cases j <;> simp [walkPath, hf] at e2
  · rfl

/-- The names before a slash are the first names of the path. -/
theorem parts_take {p : Bytes} {i : Nat} (h : p[i]? = some 47) : ∃ es, parts p = parts (p.take i) ++ es := by
  have hlt : i < p.length := by
    rcases Nat.lt_or_ge i p.length with h' | h'
    · exact h'
    · rw [List.getElem?_eq_none h'] at h
      exact absurd h (by simp)
  have hp : p = p.take i ++ 47 :: p.drop (i + 1) := by
    rw [List.getElem?_eq_getElem hlt] at h
    injection h with h
    rw [← h, ← List.drop_eq_getElem_cons hlt, List.take_append_drop]
  refine ⟨pathParts [] (p.drop (i + 1)), ?_⟩
  have := pathParts_append_slash (p.drop (i + 1)) (p.take i) []
  rw [← hp] at this
  exact this

/-- Directories on the way to an existing one are not created. -/
theorem mkdirs_existing {fs : Fs} {cwd : Nat} {p : Bytes} {n : Nat}
    (h : walkPath fs 40 (pathStart cwd p) (parts p) = some n) (may : Bool) :
    ∀ (l : List Bytes), (∀ q ∈ l, pathStart cwd q = pathStart cwd p ∧ ∃ es, parts p = parts q ++ es) →
    l.foldl (fun fs q => mkdir fs may cwd q) fs = fs
  | [], _ => rfl
  | q :: l, hl => by
    obtain ⟨h1, es, h2⟩ := hl q List.mem_cons_self
    rw [h2] at h
    obtain ⟨d, h3, _⟩ := walkPath_split fs _ _ _ _ _ h
    rw [← h1] at h3
    rw [List.foldl_cons, mkdir_existing h3]
    rw [← h2] at h
    exact mkdirs_existing h may l fun x hx => hl x (List.mem_cons_of_mem _ hx)

theorem mem_slashPrefixes {p q : Bytes} (h : q ∈ slashPrefixes p) : ∃ i, i ≠ 0 ∧ p[i]? = some 47 ∧ q = p.take i := by
  unfold slashPrefixes at h
  obtain ⟨i, _, hi⟩ := List.mem_filterMap.1 h
  split at hi
  · rename_i hc
    injection hi with hi
    exact ⟨i, hc.1, hc.2, hi.symm⟩
  · exact absurd hi (by simp)

theorem pathStart_take {p : Bytes} {i : Nat} (h : i ≠ 0) (cwd : Nat) : pathStart cwd (p.take i) = pathStart cwd p := by
  unfold pathStart
  cases i with
  | zero => exact absurd rfl h
  | succ i => cases p <;> simp

theorem pathParts_name : ∀ (name acc : Bytes), (47 : UInt8) ∉ name → acc ++ name ≠ [] → pathParts acc name = [acc ++ name]
  | [], acc, _, h => by
    simp only [List.append_nil] at h
    simp [pathParts, h]
  | b :: name, acc, hn, h => by
    have hb : b ≠ 47 := fun e => hn (by simp [e])
    rw [pathParts, if_neg hb, pathParts_name name (acc ++ [b]) (fun hm => hn (List.mem_cons_of_mem _ hm)) (by simp)]
    simp

/-- The names of `prefix/name`. -/
theorem parts_child {p name : Bytes} (h : (47 : UInt8) ∉ name) (hn : name ≠ []) :
    parts (p ++ 47 :: name) = parts p ++ [name] := by
  unfold parts
  rw [pathParts_append_slash, pathParts_name name [] h (by simpa using hn)]
  rfl

end Zdb
