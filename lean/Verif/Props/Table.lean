/-
C68: the table of keys in memory.

The theorems about user-key namespaces speak of a table that is a function from branches to lists of entries.  In the program it is an
array of linked lists, with a pointer to the last entry of each and a counter, whose cells are allocated and freed.
-/
import Verif.Lemmas.TableOps
import Verif.Props.FarIds
namespace Zdb.Table

/-- C68: after any sequence of operations, every operation ends, and reads or writes no entry or branch that is not allocated. -/
theorem C68_progress {tr : List (Op × Option Entry)} {m : Mem} (h : Ran tr m) {o : Op} (ha : o.Allowed m) : ∃ m' out, Does m o m' out := by
  obtain ⟨F, h1, -, -⟩ := h.rep
  obtain ⟨m', out, _, g, _, _⟩ := h1.op ha
  exact ⟨m', out, g⟩

/-- C68: every operation finds what a list of the entries, oldest first, says; and what is allocated is what this list contains, so that
    nothing is lost, nothing that was deleted remains, and no memory is leaked. -/
theorem C68 {tr : List (Op × Option Entry)} {m : Mem} (h : Ran tr m) : SpecAgrees [] tr ∧ Holds m (specList [] tr) := by
  obtain ⟨F, h1, h2, h3⟩ := h.rep
  exact ⟨h3, h2 ▸ h1.holds⟩

/-- The model of the store after a sequence of operations. -/
def storeBr (br : Branches) : List Op → Branches
  | [] => br
  | o :: os => storeBr (o.store br) os

/-- What it finds. -/
def storeFound (br : Branches) : List Op → List (Option Entry)
  | [] => []
  | o :: os => o.found br :: storeFound (o.store br) os

theorem storeBr_append (br : Branches) (os : List Op) (o : Op) : storeBr br (os ++ [o]) = o.store (storeBr br os) := by
  induction os generalizing br with
  | nil => rfl
  | cons x os ih => exact ih _

theorem storeFound_append (br : Branches) (os : List Op) (o : Op) :
    storeFound br (os ++ [o]) = storeFound br os ++ [o.found (storeBr br os)] := by
  induction os generalizing br with
  | nil => rfl
  | cons x os ih => simp only [List.cons_append, storeFound, storeBr, ih]

theorem specList_snoc (tr : List (Op × Option Entry)) (o : Op) (out : Option Entry) :
    specList [] (tr ++ [(o, out)]) = (o.spec (specList [] tr)).1 := by
  rw [specList_append]; rfl

/-- C68: the linked lists contain, branch by branch and in order, what the model of the store used by the other theorems contains, and
    each operation finds the same. -/
theorem C68_branches {tr : List (Op × Option Entry)} {m : Mem} (h : Ran tr m) :
    tr.map (·.2) = storeFound (fun _ => []) (tr.map (·.1)) ∧ ∀ k, Chain m k (storeBr (fun _ => []) (tr.map (·.1)) k) := by
  have key : storeBr (fun _ => []) (tr.map (·.1)) = split (specList [] tr) ∧
      tr.map (·.2) = storeFound (fun _ => []) (tr.map (·.1)) := by
    induction h with
    | nil => exact ⟨rfl, rfl⟩
    | @snoc tr m m' o out hr ha hd ih =>
      obtain ⟨F, h1, h2, h3⟩ := hr.rep
      obtain ⟨m2, out2, F', g1, g2, g3⟩ := h1.op ha
      obtain ⟨rfl, rfl⟩ := hd.unique g1
      rw [h2] at g3
      obtain ⟨s1, s2⟩ := store_spec (specList [] tr) ha
      refine ⟨?_, ?_⟩
      · rw [List.map_append, List.map_cons, List.map_nil, storeBr_append, ih.1, s1, specList_snoc]
      · rw [List.map_append, List.map_cons, List.map_nil, List.map_append, List.map_cons, List.map_nil, storeFound_append, ih.1, s2, g3, ← ih.2]
  obtain ⟨F, h1, h2, -⟩ := h.rep
  refine ⟨key.2, fun k => ?_⟩
  rw [key.1, ← h2]
  exact h1.chain k

/-- C68, for a default namespace in user-key mode: when the process stops, all the entries are freed, each one once.
    Missing: a sequential default namespace (`C68_refuted`). -/
theorem C68_stop_partial {tr : List (Op × Option Entry)} {m : Mem} (h : Ran tr m) :
    ∃ m', (∀ a, m'.cells a = none) ∧ ∃ n, ∀ fuel, n ≤ fuel → destroy fuel m .user = .ok m' := by
  obtain ⟨F, h1, -, -⟩ := h.rep
  obtain ⟨m', g1, g2⟩ := h1.destroy
  exact ⟨m', g1, F.length + 1, fun fuel hf => g2 fuel (by omega)⟩

/-! ### Concrete cases -/

/-- The operation with another address from the allocator. -/
def Op.at (o : Op) (a : Nat) : Op :=
  match o with
  | .insert _ e => .insert a e
  | o => o

/-- The fields changed are not the key and the namespace. -/
def Op.fields : Op → Prop
  | .update _ _ f => ∀ e, (f e).ns = e.ns ∧ (f e).id = e.id
  | _ => True

theorem spec_at (o : Op) (a : Nat) (L : List Entry) : (o.at a).spec L = o.spec L := by
  cases o <;> rfl

/-- What the list says that a sequence of operations finds. -/
def specFound (L : List Entry) : List Op → List (Option Entry)
  | [] => []
  | o :: os => (o.spec L).2 :: specFound (o.spec L).1 os

theorem agrees_found {L : List Entry} {tr : List (Op × Option Entry)} (h : SpecAgrees L tr) {os : List Op}
    (hs : tr.map (fun x => x.1.at 0) = os.map (·.at 0)) : tr.map (·.2) = specFound L os := by
  induction tr generalizing L os with
  | nil =>
    cases os with
    | nil => rfl
    | cons o os => simp at hs
  | cons x tr ih =>
    cases os with
    | nil => simp at hs
    | cons o os =>
      simp only [List.map_cons, List.cons.injEq] at hs
      have he : x.1.spec L = o.spec L := by rw [← spec_at x.1 0, hs.1, spec_at]
      simp only [List.map_cons, specFound, h.1, he]
      rw [ih (he ▸ h.2) hs.2]

/-- The hypothesis of the theorems above can be met for any operations: the allocator has an address for each. -/
theorem ran_any (os : List Op) (hf : ∀ o ∈ os, o.fields) : ∃ tr m, Ran tr m ∧ tr.map (fun x => x.1.at 0) = os.map (·.at 0) := by
  suffices h : ∀ n, n ≤ os.length → ∃ tr m, Ran tr m ∧ tr.map (fun x => x.1.at 0) = (os.take n).map (·.at 0) by
    have := h os.length (Nat.le_refl _)
    rwa [List.take_length] at this
  intro n
  induction n with
  | zero => exact fun _ => ⟨[], _, .nil, rfl⟩
  | succ n ih =>
    intro hn
    obtain ⟨tr, m, h1, h2⟩ := ih (by omega)
    obtain ⟨F, hR, -, -⟩ := h1.rep
    have hfree : m.cells ((F.map Prod.fst).sum + 1) = none := by
      cases hc : m.cells ((F.map Prod.fst).sum + 1) with
      | none => rfl
      | some c =>
        have hm := hR.cover ((F.map Prod.fst).sum + 1) (by simp [hc])
        have : ∀ (l : List Nat) (x : Nat), x ∈ l → x ≤ l.sum := by
          intro l
          induction l with
          | nil => intro x hx; simp at hx
          | cons y l ih =>
            intro x hx
            rw [List.sum_cons]
            rcases List.mem_cons.1 hx with rfl | hx
            · omega
            · have := ih x hx; omega
        have := this _ _ hm
        omega
    have hlt : n < os.length := by omega
    have ha : (os[n].at ((F.map Prod.fst).sum + 1)).Allowed m := by
      have hfn := hf os[n] (List.getElem_mem hlt)
      cases ho : os[n] with
      | insert a e => exact hfree
      | update u id f => rw [ho] at hfn; exact hfn
      | find u id => trivial
      | delete u id => trivial
      | clean u => trivial
    obtain ⟨m', out, hd⟩ := C68_progress h1 ha
    refine ⟨_, m', .snoc h1 ha hd, ?_⟩
    rw [List.map_append, h2, List.take_succ_eq_append_getElem hlt, List.map_append]
    congr 1
    simp only [List.map_cons, List.map_nil, List.cons.injEq, and_true]
    cases os[n] <;> rfl

/-- An entry of a key of a namespace. -/
def exEntry (u : Nat) (id : Bytes) (t : Nat) : Entry := ⟨u, id, 26, 29, 1, 0, 0, 0, 0, 0, 0, t⟩

/-- Two keys of the same branch, one of which belongs to two namespaces; the entry in the middle of the linked list is deleted, the last one
    changed, a new one added, and a namespace emptied. -/
def exOps : List Op :=
  [.insert 0 (exEntry 7 (str "1Cqy") 1), .insert 0 (exEntry 7 (str "200A") 2), .insert 0 (exEntry 8 (str "1Cqy") 3),
   .delete 7 (str "200A"), .find 7 (str "200A"), .update 8 (str "1Cqy") (fun e => { e with timestamp := 4 }), .find 8 (str "1Cqy"),
   .insert 0 (exEntry 7 (str "200A") 5), .clean 7, .find 7 (str "1Cqy"), .find 8 (str "1Cqy")]

/-- A concrete case: the two keys are in the same branch, and this is what is found. -/
example : keyHash (str "1Cqy") = keyHash (str "200A") ∧ ∃ tr m, Ran tr m ∧ tr.map (fun x => x.1.at 0) = exOps.map (·.at 0) ∧
    tr.map (·.2) = [none, none, none, some (exEntry 7 (str "200A") 2), none, some (exEntry 8 (str "1Cqy") 3), some (exEntry 8 (str "1Cqy") 4), none,
      none, none, some (exEntry 8 (str "1Cqy") 4)] ∧ Holds m [exEntry 8 (str "1Cqy") 4] := by
  refine ⟨by decide +kernel, ?_⟩
  obtain ⟨tr, m, h1, h2⟩ := ran_any exOps (by
    intro o ho
    simp only [exOps, List.mem_cons, List.not_mem_nil, or_false] at ho
    rcases ho with h | h | h | h | h | h | h | h | h | h | h <;> subst h <;> simp [Op.fields])
  have hL : ∀ (L : List Entry) (tr : List (Op × Option Entry)) (os : List Op), tr.map (fun x => x.1.at 0) = os.map (·.at 0) →
      specList L tr = os.foldl (fun L o => (o.spec L).1) L := by
    intro L tr
    induction tr generalizing L with
    | nil =>
      intro os hs
      cases os with
      | nil => rfl
      | cons o os => simp at hs
    | cons x tr ih =>
      intro os hs
      cases os with
      | nil => simp at hs
      | cons o os =>
        simp only [List.map_cons, List.cons.injEq] at hs
        have he : x.1.spec L = o.spec L := by rw [← spec_at x.1 0, hs.1, spec_at]
        simp only [specList, he, List.foldl_cons]
        exact ih _ os hs.2
  refine ⟨tr, m, h1, h2, ?_, ?_⟩
  · rw [agrees_found (C68 h1).1 h2]; decide +kernel
  · have := (C68 h1).2
    rw [hL [] tr exOps h2] at this
    have he : exOps.foldl (fun L o => (o.spec L).1) [] = [exEntry 8 (str "1Cqy") 4] := by decide +kernel
    rwa [he] at this

/-- A server without a fixed mode. -/
def exMixS : Settings := { exS with cfg := none }

/-- An administrator makes the default namespace sequential, and stops the process. -/
def exStop : List Event :=
  [.connect 5, .request 5 (exE 0) [str "AUTH", str "pw"], .request 5 (exE 1) [str "NSSET", str "default", str "mode", str "seq"]]

/-- C68 is false for the end of the process (STOP, in a build for debugging) in a server without a fixed mode, if the default namespace is
    sequential: whatever is in the table, the branches are read through a null pointer. -/
theorem C68_refuted : ∃ l n r, FreeRun exMixS (exNode exMixS) l n ∧ l.map (·.1) = exStop ∧
    (n.slots.head?.bind id) = some r ∧ r.conf.name = nameDefault ∧ r.store.mode = .seq ∧
    (∃ n' sent, nodeStep exMixS n (.request 5 (exE 2) [str "STOP"]) = .ok n' sent .shutdown) ∧
    ∀ m fuel, destroy fuel m r.store.mode = .ub := by
  have h : reaches exMixS exStop (fun n _ =>
      (match n.slots.head?.bind id with | some r => r.conf.name == nameDefault && decide (r.store.mode = .seq) | none => false) &&
      (match nodeStep exMixS n (.request 5 (exE 2) [str "STOP"]) with | .ok _ _ .shutdown => true | _ => false)) = true := by decide +kernel
  obtain ⟨l, n, h1, h2, h3⟩ := reaches_run h
  rw [Bool.and_eq_true] at h3
  obtain ⟨h3, h4⟩ := h3
  split at h3
  · rename_i r hr
    simp only [Bool.and_eq_true, beq_iff_eq, decide_eq_true_eq] at h3
    refine ⟨l, n, r, h1, h2, hr, h3.1, h3.2, ?_, fun m fuel => by rw [h3.2]; rfl⟩
    split at h4
    · rename_i n' sent hn; exact ⟨n', sent, hn⟩
    · cases h4
  · cases h3

end Zdb.Table
