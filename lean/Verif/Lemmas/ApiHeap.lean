/-
The calls of the library over memory: no bad pointer is followed, and memory is as before but for the reply.
-/
import Verif.Spec.ApiHeap
import Verif.Lemmas.HeapServer
namespace Zdb.Heap

section
variable {l : Level} {M : Mem} {o F : Own} {β : Type} {Q : β → Mem → Prop} {sp : Space} {s : Srv}

/-- The owners of a reply. -/
def repO (r : ApiRep) : Own := cnt r.blocks
/-- The owners of replies. -/
def repsO (rs : List ApiRep) : Own := cnt (rs.flatMap ApiRep.blocks)

theorem repsO_nil (x : Nat) : repsO [] x = 0 := rfl
theorem repsO_cons (r : ApiRep) (rs : List ApiRep) (x : Nat) : repsO (r :: rs) x = repO r x + repsO rs x := by
  simp only [repsO, repO, List.flatMap_cons, cnt_append]
theorem repsO_append (rs ts : List ApiRep) (x : Nat) : repsO (rs ++ ts) x = repsO rs x + repsO ts x := by
  simp only [repsO, List.flatMap_append, cnt_append]

theorem repsO_erase : ∀ {rs : List ApiRep} {i : Nat} {r : ApiRep}, rs[i]? = some r → ∀ x,
    repsO rs x = repO r x + repsO (rs.eraseIdx i) x := by
  intro rs
  induction rs with
  | nil => intro i r h; simp at h
  | cons a rs ih =>
    intro i r h x
    cases i with
    | zero =>
      simp only [List.getElem?_cons_zero, Option.some.injEq] at h
      subst h
      rw [repsO_cons, List.eraseIdx_cons_zero]
    | succ i =>
      simp only [List.getElem?_cons_succ] at h
      rw [repsO_cons, List.eraseIdx_cons_succ, repsO_cons, ih h x]
      omega

/-- A reply has been made. -/
def Made (l : Level) (o : Own) (r : ApiRep) (M : Mem) : Prop := Holds l (o + repO r) M

theorem wp_apiReply {k : Nat → Prog β} (h : Holds l o M) (hk : ∀ n M, Holds l (one n + o) M → wp l (k n) Q M) :
    wp l (apiReply >>= k) Q M := by
  rw [wp_bind]
  unfold apiReply
  al n
  us
  exact hk n M h

theorem wp_apiPlain (h : Holds l o M) : wp l apiPlain (Made l o) M := by
  unfold apiPlain
  refine wp_apiReply h fun n M h => ?_
  exact h.re (by intro x; simp only [repO, ApiRep.blocks]; owna)

theorem wp_apiError (h : Holds l o M) : wp l apiError (Made l o) M := by
  unfold apiError
  al t
  refine wp_apiReply h fun n M h => ?_
  exact h.re (by intro x; simp only [repO, ApiRep.blocks]; owna)

theorem wp_apiBuffer (h : Holds l o M) : wp l apiBuffer (Made l o) M := by
  unfold apiBuffer
  al a
  us
  al b
  us
  refine wp_apiReply h fun n M h => ?_
  exact h.re (by intro x; simp only [repO, ApiRep.blocks]; owna)

theorem wp_apiEntry {p : Nat} (h : Holds l (one p + o) M) : wp l (apiEntry p) (Made l o) M := by
  unfold apiEntry
  al a
  us
  al b
  us
  refine wp_apiReply h fun n M h => ?_
  exact h.re (by intro x; simp only [repO, ApiRep.blocks]; owna)

theorem wp_apiFree {r : ApiRep} {k : Unit → Prog β} (h : Holds l (o + repO r) M)
    (hk : ∀ M, Holds l o M → wp l (k ()) Q M) : wp l (apiFree r >>= k) Q M := by
  rw [wp_bind]
  cases r with
  | plain n =>
    have h : Holds l (o + one n) M := h.re (by intro x; simp only [repO, ApiRep.blocks]; owna)
    unfold apiFree
    us
    apply wp_tail
    fr
    exact hk M (h.re (by own))
  | error n t =>
    have h : Holds l (o + one n + one t) M := h.re (by intro x; simp only [repO, ApiRep.blocks]; owna)
    unfold apiFree
    us
    fr
    apply wp_tail
    fr
    exact hk M (h.re (by own))
  | buffer n a b =>
    have h : Holds l (o + one n + one a + one b) M := h.re (by intro x; simp only [repO, ApiRep.blocks]; owna)
    unfold apiFree
    us
    us
    fr
    fr
    apply wp_tail
    fr
    exact hk M (h.re (by own))
  | entry n a b p =>
    have h : Holds l (o + one n + one a + one b + one p) M := h.re (by intro x; simp only [repO, ApiRep.blocks]; owna)
    unfold apiFree
    us
    us
    fr
    fr
    fr
    apply wp_tail
    fr
    exact hk M (h.re (by own))

theorem wp_apiRead {r : ApiRep} {k : Unit → Prog β} (h : Holds l o M) (hr : ∀ x, repO r x ≤ o x)
    (hk : wp l (k ()) Q M) : wp l (apiRead r >>= k) Q M := by
  have hb : ∀ b ∈ r.blocks, 1 ≤ o b := Av.of_le hr
  rw [wp_bind]
  cases r with
  | plain n =>
    unfold apiRead
    apply wp_tail
    exact wp_useb h (hb n (by simp [ApiRep.blocks])) hk
  | error n t =>
    unfold apiRead
    refine wp_useb h (hb n (by simp [ApiRep.blocks])) ?_
    apply wp_tail
    exact wp_useb h (hb t (by simp [ApiRep.blocks])) hk
  | buffer n a b =>
    unfold apiRead
    refine wp_useb h (hb n (by simp [ApiRep.blocks])) ?_
    refine wp_useb h (hb a (by simp [ApiRep.blocks])) ?_
    apply wp_tail
    exact wp_useb h (hb b (by simp [ApiRep.blocks])) hk
  | entry n a b p =>
    unfold apiRead
    refine wp_useb h (hb n (by simp [ApiRep.blocks])) ?_
    refine wp_useb h (hb a (by simp [ApiRep.blocks])) ?_
    refine wp_useb h (hb b (by simp [ApiRep.blocks])) ?_
    apply wp_tail
    exact wp_useb h (hb p (by simp [ApiRep.blocks])) hk

theorem wp_apiSetUser {named existing : Bool} (h : Holds l o M) (asp : SA o sp) (ag : GA o s) :
    wp l (apiSetUser s sp named existing) (Made l o) M := by
  unfold apiSetUser
  br
  · exact wp_apiError h
  as same
  br
  · exact wp_apiPlain h
  refine wp_dataInsert h asp ?_
  clear h
  intro b M h
  br
  · exact wp_apiError h
  refine wp_useb h ag.trans ?_
  as i
  br
  · exact wp_apiError h
  · exact wp_apiBuffer h

theorem wp_apiSetSeq {named existing : Bool} (h : Holds l o M) (asp : SA o sp) (ag : GA o s) :
    wp l (apiSetSeq s sp named existing) (Made l o) M := by
  unfold apiSetSeq
  br
  · exact wp_apiPlain h
  refine wp_useb h asp.iroot ?_
  have key : wp l (do
    let same ← ask
    if existing && same ≠ 0 then apiPlain else do
      let written ← dataInsert sp
      if !written then apiPlain else do
        useb s.trans
        let indexed ← ask
        if indexed = 0 then apiPlain else apiBuffer) (Made l o) M := by
    as same
    br
    · exact wp_apiPlain h
    refine wp_dataInsert h asp ?_
    clear h
    intro b M h
    br
    · exact wp_apiPlain h
    refine wp_useb h ag.trans ?_
    as i
    br
    · exact wp_apiPlain h
    · exact wp_apiBuffer h
  br
  · exact wp_useb h ag.reuse key
  · exact key

/-- A call has changed a namespace and made a reply. -/
def Called (l : Level) (F : Own) (sp : Space) (r : Space × ApiRep) (M : Mem) : Prop :=
  Holds l (F + spO r.1 + repO r.2) M ∧ r.1.self = sp.self ∧ ModeOk r.1

theorem wp_apiSet (h : Holds l (F + spO sp) M) (hm : ModeOk sp) (ag : GA F s) :
    wp l (apiSet s sp) (Called l F sp) M := by
  unfold apiSet
  have asp : SA (F + spO sp) sp := SA.of hm (by own)
  as named
  have key : ∀ (existing : Bool) (M : Mem), Holds l (F + spO sp) M → wp l (do
      useb sp.self
      let room ← ask
      if room = 0 then do
        let r ← apiError
        pure (sp, r)
      else do
        let full ← ask
        let sp ← if full = 0 then pure sp else jump sp
        let r ← if sp.seqMode then apiSetSeq s sp (named ≠ 0) existing else apiSetUser s sp (named ≠ 0) existing
        pure (sp, r)) (Called l F sp) M := by
    intro existing M h
    refine wp_useb h asp.self ?_
    as room
    br
    · exact wp_call (wp_apiError h) fun r M h => ⟨h, rfl, hm⟩
    as full
    have k3 : ∀ sp' M, Upd l F sp sp' M → wp l (do
        let r ← if sp'.seqMode then apiSetSeq s sp' (named ≠ 0) existing else apiSetUser s sp' (named ≠ 0) existing
        pure (sp', r)) (Called l F sp) M := by
      rintro sp' M ⟨h, e, hm'⟩
      have as2 : SA (F + spO sp') sp' := SA.of hm' (by own)
      have ag2 : GA (F + spO sp') s := ag.mono (by own)
      br
      · exact wp_call (wp_apiSetSeq h as2 ag2) fun r M h => ⟨h, e, hm'⟩
      · exact wp_call (wp_apiSetUser h as2 ag2) fun r M h => ⟨h, e, hm'⟩
    br
    · exact k3 sp M ⟨h, rfl, hm⟩
    · exact wp_jump h hm k3
  br
  · exact key false M h
  · exact wp_indexGet h asp (ag.mono (by own)) key

theorem wp_apiGet (h : Holds l o M) (asp : SA o sp) (ag : GA o s) : wp l (apiGet s sp) (Made l o) M := by
  unfold apiGet
  refine wp_indexGet h asp ag ?_
  clear h
  intro b M h
  br
  · exact wp_apiPlain h
  as d
  br
  · exact wp_apiPlain h
  refine wp_dataGet h asp (fun M h => ?_) fun b M h => ?_
  · refine wp_free h (fun b hb => by cases hb) fun M h => ?_
    exact wp_apiPlain (h.re (by own))
  · exact wp_apiEntry h

theorem wp_apiExists (h : Holds l o M) (asp : SA o sp) (ag : GA o s) : wp l (apiExists s sp) (Made l o) M := by
  unfold apiExists
  exact wp_indexGet h asp ag fun _ M h => wp_apiPlain h

theorem wp_apiCheck (h : Holds l o M) (asp : SA o sp) (ag : GA o s) : wp l (apiCheck s sp) (Made l o) M := by
  unfold apiCheck
  refine wp_indexGet h asp ag ?_
  clear h
  intro b M h
  br
  · exact wp_apiPlain h
  as d
  br
  · exact wp_apiPlain h
  exact wp_dataCheck h asp fun M h => wp_apiPlain h

theorem wp_apiDel (h : Holds l o M) (asp : SA o sp) (ag : GA o s) : wp l (apiDel s sp) (Made l o) M := by
  unfold apiDel
  refine wp_indexGet h asp ag ?_
  clear h
  intro b M h
  br
  · exact wp_apiPlain h
  as d
  br
  · exact wp_apiPlain h
  refine wp_dataInsert h asp fun b M h => ?_
  br
  · exact wp_apiPlain h
  · exact wp_useb h ag.trans (wp_apiPlain h)

theorem wp_apiCall (k : ApiCall) (h : Holds l (F + spO sp) M) (hm : ModeOk sp) (ag : GA F s) :
    wp l (k.prog s sp) (Called l F sp) M := by
  have asp : SA (F + spO sp) sp := SA.of hm (by own)
  have ag2 : GA (F + spO sp) s := ag.mono (by own)
  cases k with
  | set => exact wp_apiSet h hm ag
  | get => exact wp_call (wp_apiGet h asp ag2) fun r M h => ⟨h, rfl, hm⟩
  | exist => exact wp_call (wp_apiExists h asp ag2) fun r M h => ⟨h, rfl, hm⟩
  | check => exact wp_call (wp_apiCheck h asp ag2) fun r M h => ⟨h, rfl, hm⟩
  | del => exact wp_call (wp_apiDel h asp ag2) fun r M h => ⟨h, rfl, hm⟩

/-- Between two acts. -/
def CalmLib (l : Level) (r : Srv × List ApiRep) (M : Mem) : Prop := Holds l (srvO r.1 + repsO r.2) M ∧ SrvOk r.1

theorem wp_apiAct {rs : List ApiRep} (a : ApiAct) (hx : CalmLib l (s, rs) M) : wp l (a.prog s rs) (CalmLib l) M := by
  obtain ⟨h, ok⟩ := hx
  simp only at h ok
  have hc : CalmLib l (s, rs) M := ⟨h, ok⟩
  cases a with
  | call k =>
    simp only [ApiAct.prog]
    refine wp_namespaceGet h ?_ s.spaces (fun sp hsp => sa_mem hsp (ok.mode sp hsp) fun x => ?_) fun sp hsp => ?_
    · exact hc
    · simp only [add_ap, srvO_ap]
      omega
    refine wp_call (wp_onSpace (P := fun o r M => Holds l (o + repO r) M) s.spaces
      (glO s + clsO s.clients + repsO rs) M ?_ ok.mode (h.re ?_) ?_) ?_
    · exact List.mem_map.2 ⟨sp, hsp, rfl⟩
    · intro x
      simp only [srvO_ap, add_ap]
      omega
    · intro sp F M hF hm h
      refine wp_apiCall k h hm (ga_of fun x => Nat.le_trans ?_ (hF x))
      simp only [add_ap]
      omega
    · rintro ⟨ls, r⟩ M ⟨h, hids, hm⟩
      refine ⟨h.re ?_, ⟨hm, ?_, ok.cl⟩⟩
      · intro x
        simp only [srvO_ap, add_ap, glO_ap, repsO_append, repsO_cons, repsO_nil]
        omega
      · intro d hd p hp
        have := ok.ns d hd p hp
        simp only [hids]
        exact this
  | look i =>
    simp only [ApiAct.prog]
    cases e : rs[i]? with
    | none => exact hc
    | some r =>
      refine wp_apiRead h (fun x => ?_) hc
      have := repsO_erase e x
      simp only [add_ap]
      omega
  | release i =>
    simp only [ApiAct.prog]
    cases e : rs[i]? with
    | none => exact hc
    | some r =>
      refine wp_apiFree (o := srvO s + repsO (rs.eraseIdx i)) (h.re fun x => ?_) fun M h => ⟨h, ok⟩
      have := repsO_erase e x
      simp only [add_ap]
      omega

theorem wp_runActs : ∀ (as : List ApiAct) (s : Srv) (rs : List ApiRep) (M : Mem), CalmLib l (s, rs) M →
    wp l (runActs as s rs) (CalmLib l) M := by
  intro as
  induction as with
  | nil => intro s rs M h; exact h
  | cons a as ih =>
    intro s rs M h
    unfold runActs
    exact wp_call (wp_apiAct a h) fun r M h => ih r.1 r.2 M h

theorem CalmLib.of (hx : Calm l s M) : CalmLib l (s, []) M :=
  ⟨hx.1.re fun x => by simp only [add_ap, repsO_nil]; omega, hx.2⟩

theorem wp_eachFree {k : Unit → Prog β} (hk : ∀ M, Holds l o M → wp l (k ()) Q M) : ∀ (rs : List ApiRep) (M : Mem),
    Holds l (o + repsO rs) M → wp l (each apiFree rs >>= k) Q M := by
  intro rs
  induction rs with
  | nil =>
    intro M h
    exact hk M (h.re fun x => by simp only [add_ap, repsO_nil]; omega)
  | cons r rs ih =>
    intro M h
    rw [wp_bind]
    unfold each
    refine wp_apiFree (o := o + repsO rs) (h.re fun x => ?_) fun M h => wp_bind.1 (ih M h)
    simp only [add_ap, repsO_cons]
    omega

end

/-! ### nothing is forgotten -/

/-- A program in which no block is forgotten and none of the places of `Hazard` is. -/
def NoLose {α : Type} : Prog α → Prop
  | .ret _ => True
  | .alloc k => ∀ b, NoLose (k b)
  | .free _ k => NoLose k
  | .use _ k => NoLose k
  | .askf k => ∀ a, NoLose (k a)
  | .lose _ _ => False
  | .hazard _ _ => False
  | .die => True

theorem NoLose.bind' {α β : Type} {p : Prog α} {f : α → Prog β} : NoLose p → (∀ a, NoLose (f a)) → NoLose (p.bind f) := by
  induction p with
  | ret a => intro _ h; exact h a
  | alloc k ih => intro h1 h; exact fun b => ih b (h1 b) h
  | free q k ih => intro h1 h; exact ih h1 h
  | use q k ih => intro h1 h; exact ih h1 h
  | askf k ih => intro h1 h; exact fun b => ih b (h1 b) h
  | lose b k ih => intro h1 _; exact h1
  | hazard g k ih => intro h1 _; exact h1
  | die => intro _ _; trivial

theorem NoLose.bind {α β : Type} {p : Prog α} {f : α → Prog β} (h1 : NoLose p) (h : ∀ a, NoLose (f a)) :
    NoLose (p >>= f) := NoLose.bind' h1 h

theorem NoLose.ite {α : Type} {c : Prop} [Decidable c] {p q : Prog α} (h1 : NoLose p) (h2 : NoLose q) :
    NoLose (if c then p else q) := by
  split
  · exact h1
  · exact h2

theorem NoLose.kept {l : Level} {α : Type} {p : Prog α} {M : Mem} {r : Res α} (h : Exec l p M r) :
    NoLose p → ∀ a M', r = .done a M' → ∀ b, M' b = .lost → M b = .lost := by
  induction h with
  | ret a M =>
    intro _ a' M' e b hb
    cases e
    exact hb
  | alloc k M b r hb _ ih =>
    intro h a M' e x hx
    have := ih (h b) a M' e x hx
    by_cases hxb : x = b
    · simp [Mem.set, hxb] at this
    · simpa [Mem.set, hxb] using this
  | freed b k M r hb _ ih =>
    intro h a M' e x hx
    have := ih h a M' e x hx
    by_cases hxb : x = b
    · simp [Mem.set, hxb] at this
    · simpa [Mem.set, hxb] using this
  | freeNull k M r _ ih => intro h; exact ih h
  | freeBad b k M hb => intro _ a M' e; cases e
  | used b k M r hb _ ih => intro h; exact ih h
  | useNull k M => intro _ a M' e; cases e
  | useBad b k M hb => intro _ a M' e; cases e
  | asked k M a r _ ih => intro h; exact ih (h a)
  | lost b k M r hl hb _ ih => intro h; exact h.elim
  | hazard g k M r hl _ ih => intro h; exact h.elim
  | died M => intro _ a M' e; cases e

/-- Through sequences, questions and branches. -/
macro "nl" : tactic => `(tactic| repeat' (first
  | exact True.intro
  | assumption
  | (refine NoLose.ite ?_ ?_)
  | (refine NoLose.bind ?_ ?_)
  | (intro _)
  | split))

theorem nl_itemGetDisk (sp : Space) : NoLose (itemGetDisk sp) := by
  unfold itemGetDisk; nl

theorem nl_indexGet (s : Srv) (sp : Space) : NoLose (indexGet s sp) := by
  have := nl_itemGetDisk sp
  unfold indexGet; nl

theorem nl_dataGet (sp : Space) : NoLose (dataGet sp) := by
  unfold dataGet; nl

theorem nl_dataCheck (sp : Space) : NoLose (dataCheck sp) := by
  unfold dataCheck; nl

theorem nl_dataInsert (sp : Space) : NoLose (dataInsert sp) := by
  unfold dataInsert; nl

theorem nl_realloc (b : Nat) : NoLose (realloc b) := by
  unfold realloc; nl

theorem nl_jump (sp : Space) : NoLose (jump sp) := by
  have := nl_realloc
  unfold jump dirtyResize seqPush
  repeat' (first | exact this _ | nl)

theorem nl_plain : NoLose apiPlain := by unfold apiPlain apiReply; nl
theorem nl_error : NoLose apiError := by unfold apiError apiReply; nl
theorem nl_buffer : NoLose apiBuffer := by unfold apiBuffer apiReply; nl
theorem nl_entry (p : Nat) : NoLose (apiEntry p) := by unfold apiEntry apiReply; nl
theorem nl_free (r : ApiRep) : NoLose (apiFree r) := by cases r <;> (unfold apiFree; nl)
theorem nl_read (r : ApiRep) : NoLose (apiRead r) := by cases r <;> (unfold apiRead; nl)

theorem nl_call (k : ApiCall) (s : Srv) (sp : Space) : NoLose (k.prog s sp) := by
  have h1 := nl_indexGet s sp
  have h2 := nl_dataGet sp
  have h3 := nl_dataCheck sp
  have h4 := nl_dataInsert
  have h5 := nl_plain
  have h6 := nl_error
  have h7 := nl_buffer
  have h8 := nl_entry
  have h9 := nl_jump sp
  cases k <;>
    (simp only [ApiCall.prog, apiSet, apiGet, apiExists, apiCheck, apiDel, apiSetUser, apiSetSeq]
     repeat' (first | exact h4 _ | exact h8 _ | nl))

theorem nl_namespaceGet : ∀ (ls : List Space), NoLose (namespaceGet ls) := by
  intro ls
  induction ls with
  | nil => exact True.intro
  | cons sp ls ih => unfold namespaceGet; nl

theorem nl_onSpace {α : Type} {p : Nat} {f : Space → Prog (Space × α)} (h : ∀ sp, NoLose (f sp)) : ∀ (ls : List Space),
    NoLose (onSpace p f ls) := by
  intro ls
  induction ls with
  | nil => unfold onSpace; exact True.intro
  | cons sp ls ih =>
    unfold onSpace
    repeat' (first | exact h _ | nl)

theorem nl_act (a : ApiAct) (s : Srv) (rs : List ApiRep) : NoLose (a.prog s rs) := by
  have h1 := nl_namespaceGet s.spaces
  cases a with
  | call k =>
    simp only [ApiAct.prog]
    refine NoLose.bind h1 fun p => ?_
    cases p with
    | none => exact True.intro
    | some p => exact NoLose.bind (nl_onSpace (nl_call k s) s.spaces) fun _ => True.intro
  | look i =>
    simp only [ApiAct.prog]
    cases rs[i]? with
    | none => exact True.intro
    | some r => exact NoLose.bind (nl_read r) fun _ => True.intro
  | release i =>
    simp only [ApiAct.prog]
    cases rs[i]? with
    | none => exact True.intro
    | some r => exact NoLose.bind (nl_free r) fun _ => True.intro

theorem nl_runActs : ∀ (as : List ApiAct) (s : Srv) (rs : List ApiRep), NoLose (runActs as s rs) := by
  intro as
  induction as with
  | nil => intro s rs; exact True.intro
  | cons a as ih =>
    intro s rs
    unfold runActs
    exact NoLose.bind (nl_act a s rs) fun r => ih r.1 r.2

end Zdb.Heap
