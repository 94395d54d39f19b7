/-
Each operation of the table does what the specification and the model of the store say.
-/
import Verif.Lemmas.Table
namespace Zdb.Table

attribute [local irreducible] Table.clean Table.destroy

theorem find_map (p : Entry → Bool) (F : List (Nat × Entry)) :
    (F.map Prod.snd).find? p = (F.find? (fun x => p x.2)).map Prod.snd := by
  rw [List.find?_map]; rfl

theorem changeFirst_split {p : Entry → Bool} {f : Entry → Entry} {L1 L2 : List Entry} {e : Entry} (h1 : ∀ x ∈ L1, p x = false) (h2 : p e = true) :
    changeFirst p f (L1 ++ e :: L2) = L1 ++ f e :: L2 := by
  induction L1 with
  | nil => simp [changeFirst, h2]
  | cons x L1 ih =>
    simp only [List.cons_append, changeFirst, h1 x (by simp), Bool.false_eq_true, if_false]
    rw [ih (fun y hy => h1 y (by simp [hy]))]

theorem changeFirst_none {p : Entry → Bool} {f : Entry → Entry} {L : List Entry} (h : ∀ x ∈ L, p x = false) : changeFirst p f L = L := by
  induction L with
  | nil => rfl
  | cons x L ih =>
    simp only [changeFirst, h x (by simp), Bool.false_eq_true, if_false]
    rw [ih (fun y hy => h y (by simp [hy]))]

theorem replaceFirst_eq (p : Entry → Bool) (e' : Entry) (L : List Entry) : replaceFirst p e' L = changeFirst p (fun _ => e') L := by
  induction L with
  | nil => rfl
  | cons x L ih => simp only [replaceFirst, changeFirst, ih]

/-- Each operation ends, and does what the list says. -/
theorem Rep.op {m : Mem} {F : List (Nat × Entry)} (hR : Rep m F) {o : Op} (ha : o.Allowed m) :
    ∃ m' out F', Does m o m' out ∧ Rep m' F' ∧ o.spec (F.map Prod.snd) = (F'.map Prod.snd, out) := by
  cases o with
  | find u id =>
    have hl := fun fuel hf => hR.lookup u id (fuel := fuel) hf
    cases hx : F.find? (fun x => Hit u id x.2) with
    | none =>
      refine ⟨m, none, F, ⟨F.length + 1, fun fuel hf => ?_⟩, hR, ?_⟩
      · simp only [Op.run, hl fuel (by omega), hx, Option.map_none, Res.bind]
      · simp only [Op.spec, find_map, hx, Option.map_none]
    | some x =>
      obtain ⟨nx, hc⟩ := hR.cell (List.mem_of_find?_eq_some hx)
      refine ⟨m, some x.2, F, ⟨F.length + 1, fun fuel hf => ?_⟩, hR, ?_⟩
      · simp only [Op.run, hl fuel (by omega), hx, Option.map_some, Res.bind, hc]
      · simp only [Op.spec, find_map, hx, Option.map_some]
  | insert a e =>
    obtain ⟨m', h1, h2⟩ := hR.insert ha e
    refine ⟨m', none, _, ⟨0, fun fuel _ => ?_⟩, h2, ?_⟩
    · simp only [Op.run, h1, Res.bind]
    · simp only [Op.spec, List.map_append, List.map_cons, List.map_nil]
  | update u id f =>
    have hl := fun fuel hf => hR.lookup u id (fuel := fuel) hf
    cases hx : F.find? (fun x => Hit u id x.2) with
    | none =>
      refine ⟨m, none, F, ⟨F.length + 1, fun fuel hf => ?_⟩, hR, ?_⟩
      · simp only [Op.run, hl fuel (by omega), hx, Option.map_none, Res.bind]
      · simp only [Op.spec, find_map, hx, Option.map_none]
        rw [changeFirst_none]
        intro e he
        obtain ⟨y, hy, rfl⟩ := List.mem_map.1 he
        have := List.find?_eq_none.1 hx y hy
        simpa using this
    | some x =>
      obtain ⟨nx, hc⟩ := hR.cell (List.mem_of_find?_eq_some hx)
      obtain ⟨hp, F1, F2, rfl, hF1⟩ := List.find?_eq_some_iff_append.1 hx
      refine ⟨m.put x.1 (some ⟨f x.2, nx⟩), some x.2, F1 ++ (x.1, f x.2) :: F2, ⟨(F1 ++ x :: F2).length + 1, fun fuel hf => ?_⟩,
        hR.update hc (ha x.2).2, ?_⟩
      · simp only [Op.run, hl fuel (by omega), hx, Option.map_some, Res.bind, hc]
      · simp only [Op.spec, find_map, hx, Option.map_some]
        rw [List.map_append, List.map_cons, List.map_append, List.map_cons]
        rw [changeFirst_split (fun e he => ?_) hp]
        obtain ⟨y, hy, rfl⟩ := List.mem_map.1 he
        have := hF1 y hy
        simpa using this
  | delete u id =>
    have hl := fun fuel hf => hR.lookup u id (fuel := fuel) hf
    cases hx : F.find? (fun x => Hit u id x.2) with
    | none =>
      refine ⟨m, none, F, ⟨F.length + 1, fun fuel hf => ?_⟩, hR, ?_⟩
      · simp only [Op.run, hl fuel (by omega), hx, Option.map_none, Res.bind]
      · simp only [Op.spec, find_map, hx, Option.map_none]
        rw [List.eraseP_of_forall_not]
        intro e he
        obtain ⟨y, hy, rfl⟩ := List.mem_map.1 he
        exact List.find?_eq_none.1 hx y hy
    | some x =>
      obtain ⟨nx, hc⟩ := hR.cell (List.mem_of_find?_eq_some hx)
      obtain ⟨hp, F1, F2, rfl, hF1⟩ := List.find?_eq_some_iff_append.1 hx
      obtain ⟨m', h1, h2⟩ := hR.delete
      refine ⟨m', some x.2, F1 ++ F2, ⟨(F1 ++ x :: F2).length + 1, fun fuel hf => ?_⟩, h1, ?_⟩
      · simp only [Op.run, hl fuel (by omega), hx, Option.map_some, Res.bind, hc, h2 fuel (by omega)]
      · simp only [Op.spec, find_map, hx, Option.map_some]
        rw [List.map_append, List.map_cons, List.map_append]
        rw [List.eraseP_append_right, List.eraseP_cons_of_pos hp]
        intro e he
        obtain ⟨y, hy, rfl⟩ := List.mem_map.1 he
        have := hF1 y hy
        simpa using this
  | clean u =>
    obtain ⟨m', h1, h2⟩ := hR.clean u
    refine ⟨m', none, _, ⟨F.length + 1, fun fuel hf => ?_⟩, h1, ?_⟩
    · show (Table.clean fuel m u).bind _ = _
      rw [h2 fuel (by omega)]; rfl
    · simp only [Op.spec]
      rw [List.filter_map]; rfl

theorem Does.unique {m m1 m2 : Mem} {o : Op} {r1 r2 : Option Entry} (h1 : Does m o m1 r1) (h2 : Does m o m2 r2) : m1 = m2 ∧ r1 = r2 := by
  obtain ⟨n1, h1⟩ := h1
  obtain ⟨n2, h2⟩ := h2
  have := (h1 (max n1 n2) (Nat.le_max_left _ _)).symm.trans (h2 (max n1 n2) (Nat.le_max_right _ _))
  injection this with this
  injection this with a b
  exact ⟨a, b⟩

theorem specList_append (L : List Entry) (tr tr' : List (Op × Option Entry)) : specList L (tr ++ tr') = specList (specList L tr) tr' := by
  induction tr generalizing L with
  | nil => rfl
  | cons x tr ih => exact ih _

theorem SpecAgrees.append {L : List Entry} {tr tr' : List (Op × Option Entry)} (h1 : SpecAgrees L tr) (h2 : SpecAgrees (specList L tr) tr') :
    SpecAgrees L (tr ++ tr') := by
  induction tr generalizing L with
  | nil => exact h2
  | cons x tr ih => exact ⟨h1.1, ih h1.2 h2⟩

theorem Ran.rep {tr : List (Op × Option Entry)} {m : Mem} (h : Ran tr m) :
    ∃ F, Rep m F ∧ F.map Prod.snd = specList [] tr ∧ SpecAgrees [] tr := by
  induction h with
  | nil => exact ⟨[], .init, rfl, trivial⟩
  | snoc hr ha hd ih =>
    obtain ⟨F, h1, h2, h3⟩ := ih
    obtain ⟨m2, out2, F', g1, g2, g3⟩ := h1.op ha
    obtain ⟨rfl, rfl⟩ := hd.unique g1
    rw [h2] at g3
    refine ⟨F', g2, ?_, h3.append ⟨by rw [g3], trivial⟩⟩
    rw [specList_append]
    show _ = (Op.spec _ _).1
    rw [g3]

theorem Rep.holds {m : Mem} {F : List (Nat × Entry)} (h : Rep m F) : Holds m (F.map Prod.snd) := by
  refine ⟨F.map Prod.fst, h.nodup, fun a => ⟨h.cover a, fun ha => ?_⟩, ?_⟩
  · obtain ⟨x, hx, rfl⟩ := List.mem_map.1 ha
    obtain ⟨nx, hc⟩ := h.cell hx
    rw [hc]; simp
  · rw [List.map_map, List.map_map]
    refine List.Perm.of_eq (List.map_congr_left (fun x hx => ?_))
    obtain ⟨nx, hc⟩ := h.cell hx
    simp [hc]

/-! ### the model of the store -/

theorem walk_seg {m : Mem} {l : List (Nat × Entry)} {p : Option Nat} (h : Seg m.cells p l none) {fuel : Nat} (hf : l.length < fuel) :
    walk m fuel p = .ok (l.map Prod.snd) := by
  induction l generalizing p fuel with
  | nil =>
    cases fuel with
    | zero => simp at hf
    | succ n => rw [show p = none from h]; rfl
  | cons x l ih =>
    obtain ⟨h1, nx, h2, h3⟩ := h
    cases fuel with
    | zero => simp at hf
    | succ n =>
      simp only [List.length_cons] at hf
      rw [h1, walk, h2]
      show (walk m n nx).bind _ = _
      rw [ih h3 (by omega)]
      rfl

/-- A list of entries, by branch. -/
def split (L : List Entry) : Branches := fun h => L.filter (fun e => keyHash e.id == h)

theorem Rep.chain {m : Mem} {F : List (Nat × Entry)} (h : Rep m F) (k : Nat) : Chain m k (split (F.map Prod.snd) k) := by
  have hb := h.br k
  have he : split (F.map Prod.snd) k = (bucket F k).map Prod.snd := by
    unfold split bucket; rw [List.filter_map]; rfl
  rw [he]
  unfold Chain
  unfold BranchOK at hb
  split at hb
  · rename_i hbr; rw [hbr, hb]; rfl
  · rename_i b hbr
    rw [hbr]
    exact ⟨by rw [hb.1, List.length_map], (bucket F k).length + 1, fun fuel hf => walk_seg hb.2.1 (by omega)⟩

theorem split_get (L : List Entry) (u : Nat) (id : Bytes) : brGet (split L) u id = L.find? (Hit u id) := by
  unfold brGet split
  rw [List.find?_filter]
  congr 1
  funext e
  rw [hit_eq]
  cases hh : Hit u id e with
  | false => simp
  | true =>
    simp only [Hit, decide_eq_true_eq] at hh
    simp [hh.2]

theorem filter_changeFirst {p q : Entry → Bool} {f : Entry → Entry} (hq : ∀ e, p e = true → q e = true ∧ q (f e) = true) (L : List Entry) :
    (changeFirst p f L).filter q = changeFirst p f (L.filter q) := by
  induction L with
  | nil => rfl
  | cons x L ih =>
    by_cases hp : p x = true
    · simp [changeFirst, hp, hq x hp]
    · by_cases h : q x = true
      · simp [changeFirst, hp, h, ih]
      · simp [changeFirst, hp, h, ih]

theorem filter_changeFirst_out {p q : Entry → Bool} {f : Entry → Entry} (hq : ∀ e, p e = true → q e = false ∧ q (f e) = false) (L : List Entry) :
    (changeFirst p f L).filter q = L.filter q := by
  induction L with
  | nil => rfl
  | cons x L ih =>
    by_cases hp : p x = true
    · simp [changeFirst, hp, hq x hp]
    · by_cases h : q x = true
      · simp [changeFirst, hp, h, ih]
      · simp [changeFirst, hp, h, ih]

theorem filter_eraseP {p q : Entry → Bool} (hq : ∀ e, p e = true → q e = true) (L : List Entry) :
    (L.eraseP p).filter q = (L.filter q).eraseP p := by
  induction L with
  | nil => rfl
  | cons x L ih =>
    by_cases hp : p x = true
    · simp [List.eraseP_cons, hp, hq x hp]
    · by_cases h : q x = true
      · simp [List.eraseP_cons, hp, h, ih]
      · simp [List.eraseP_cons, hp, h, ih]

theorem filter_eraseP_out {p q : Entry → Bool} (hq : ∀ e, p e = true → q e = false) (L : List Entry) : (L.eraseP p).filter q = L.filter q := by
  induction L with
  | nil => rfl
  | cons x L ih =>
    by_cases hp : p x = true
    · simp [List.eraseP_cons, hp, hq x hp]
    · by_cases h : q x = true
      · simp [List.eraseP_cons, hp, h, ih]
      · simp [List.eraseP_cons, hp, h, ih]

theorem changeFirst_found {p : Entry → Bool} {f g : Entry → Entry} {L : List Entry} {e : Entry} (h : L.find? p = some e) (hg : g e = f e) :
    changeFirst p g L = changeFirst p f L := by
  induction L with
  | nil => rfl
  | cons x L ih =>
    by_cases hp : p x = true
    · rw [List.find?_cons_of_pos hp] at h
      injection h with h
      subst h
      simp [changeFirst, hp, hg]
    · rw [List.find?_cons_of_neg hp] at h
      simp [changeFirst, hp, ih h]

theorem is_hit (u : Nat) (id : Bytes) : Entry.is u id = Hit u id := funext (hit_eq u id)

theorem hit_hash {u : Nat} {id : Bytes} {e : Entry} (h : Hit u id e = true) : keyHash e.id = keyHash id := by
  simp only [Hit, decide_eq_true_eq] at h
  rw [h.2]

/-- The model of the store does the same as the list. -/
theorem store_spec (L : List Entry) {o : Op} {m : Mem} (ha : o.Allowed m) : o.store (split L) = split (o.spec L).1 ∧ o.found (split L) = (o.spec L).2 := by
  cases o with
  | find u id => exact ⟨rfl, split_get L u id⟩
  | insert a e =>
    refine ⟨?_, rfl⟩
    funext h
    simp only [Op.store, Op.spec, brAppend, split, List.filter_append]
    by_cases hh : h = keyHash e.id
    · simp [hh]
    · simp [hh, Ne.symm hh]
  | update u id f =>
    refine ⟨?_, split_get L u id⟩
    simp only [Op.store, Op.spec, split_get]
    cases hx : L.find? (Hit u id) with
    | none => rw [changeFirst_none (fun e he => by simpa using List.find?_eq_none.1 hx e he)]
    | some e =>
      funext h
      have hf : ∀ e, Hit u id e = true → keyHash (f e).id = keyHash id := fun e he => by rw [(ha e).2]; exact hit_hash he
      simp only [brUpdate, replaceFirst_eq, is_hit]
      by_cases hh : h = keyHash id
      · subst hh
        have hb : (split L (keyHash id)).find? (Hit u id) = some e := by
          rw [← hx, ← split_get L u id, brGet, is_hit]
        rw [if_pos rfl, changeFirst_found (f := f) (g := fun _ => f e) hb rfl]
        unfold split
        rw [filter_changeFirst]
        intro e' he'
        simp [hit_hash he', hf e' he']
      · rw [if_neg hh]
        unfold split
        rw [filter_changeFirst_out]
        intro e' he'
        simp [hit_hash he', hf e' he', Ne.symm hh]
  | delete u id =>
    refine ⟨?_, split_get L u id⟩
    funext h
    simp only [Op.store, Op.spec, brRemove, is_hit]
    by_cases hh : h = keyHash id
    · subst hh
      rw [if_pos rfl]
      unfold split
      rw [filter_eraseP]
      intro e' he'
      simp [hit_hash he']
    · rw [if_neg hh]
      unfold split
      rw [filter_eraseP_out]
      intro e' he'
      simp [hit_hash he', Ne.symm hh]
  | clean u =>
    refine ⟨?_, rfl⟩
    funext h
    simp only [Op.store, Op.spec, brClean, split, List.filter_filter]
    congr 1
    funext e
    rw [Bool.and_comm]
    by_cases hu : e.ns = u <;> simp [hu]

end Zdb.Table
