/-
Commands, requests and events: what the server holds.
-/
import Verif.Lemmas.HeapSpace
namespace Zdb.Heap

/-- What the arguments of a request hold. -/
def argsO (l : List Arg) : Own := cnt (l.flatMap Arg.blocks)

/-- What a client holds. -/
def clO (c : Client) : Own := cnt c.blocks

/-- What clients hold. -/
def clsO (l : List Client) : Own := cnt (l.flatMap Client.blocks)

/-- What the process itself holds. -/
def glO (s : Srv) : Own := cnt s.globals

/-- What a server holds. -/
def srvO (s : Srv) : Own := cnt s.blocks

theorem clO_ap (c : Client) (x : Nat) : clO c x = one c.self x + one c.buf x + one c.req x + cnt c.nonce.toList x +
    cnt c.argv.toList x + argsO (c.args.take c.argc) x + rs c.resp x := by
  simp only [clO, Client.blocks, Client.reqBlocks, argsO, rs]
  owna

theorem clsO_nil (x : Nat) : clsO [] x = 0 := rfl
theorem clsO_cons (c : Client) (l : List Client) (x : Nat) : clsO (c :: l) x = clO c x + clsO l x := by
  simp only [clsO, clO]
  owna
theorem clsO_append (l l' : List Client) (x : Nat) : clsO (l ++ l') x = clsO l x + clsO l' x := by
  simp only [clsO, List.flatMap_append]
  owna

theorem glO_ap (s : Srv) (x : Nat) : glO s x = one s.clist x + one s.nsroot x + one s.nslist x + one s.trans x +
    one s.reuse x + cnt s.branches.toList x := by
  simp only [glO, Srv.globals]
  owna

theorem srvO_ap (s : Srv) (x : Nat) : srvO s x = glO s x + clsO s.clients x + spsO s.spaces x := by
  simp only [srvO, Srv.blocks, glO, clsO, spsO]
  owna

theorem argsO_nil (x : Nat) : argsO [] x = 0 := rfl
theorem argsO_cons (a : Arg) (l : List Arg) (x : Nat) : argsO (a :: l) x = one a.obj x + cnt a.buf.toList x + argsO l x := by
  simp only [argsO, List.flatMap_cons, Arg.blocks]
  owna
theorem argsO_append (l l' : List Arg) (x : Nat) : argsO (l ++ l') x = argsO l x + argsO l' x := by
  simp only [argsO, List.flatMap_append]
  owna

/-- Arithmetic of owners, clients expanded. -/
macro "owca" : tactic => `(tactic| ((try simp only [srvO_ap, clO_ap, clsO_nil, clsO_cons, clsO_append, glO_ap, rs_append,
  rs_cons, rs_nil, argsO_nil, argsO_cons, argsO_append, spsO_nil, spsO_cons, spsO_append, List.take_nil, add_ap, sub_ap] at *) <;> owna))
/-- The same at every block. -/
macro "owc" : tactic => `(tactic| (intro x; owca))

/-- The namespace of a client exists. -/
def NsOk (sps : List Space) (c : Client) : Prop := ∀ p, c.ns = some p → p ∈ spaceIds sps

/-- The request of a client is as its state says. -/
def CInv (c : Client) : Prop :=
  match c.phase with
  | .empty => c.argv = none ∧ c.args = []
  | .header => (∃ v, c.argv = some v) ∧ c.args.length < c.argc ∧ ∀ a ∈ c.args, ∃ b, a.buf = some b
  | .payload => (∃ v, c.argv = some v) ∧ c.args ≠ [] ∧ c.args.length ≤ c.argc ∧ ∀ a ∈ c.args, ∃ b, a.buf = some b

/-- What holds between events. -/
structure SrvOk (s : Srv) : Prop where
  mode : ∀ sp ∈ s.spaces, ModeOk sp
  ns : ∀ c ∈ s.clients, NsOk s.spaces c
  cl : ∀ c ∈ s.clients, CInv c

/-- A command leaves the request as it is. -/
structure Same (c c' : Client) : Prop where
  fd : c'.fd = c.fd
  self : c'.self = c.self
  req : c'.req = c.req
  argc : c'.argc = c.argc
  argv : c'.argv = c.argv
  args : c'.args = c.args
  phase : c'.phase = c.phase

/-- The server and the client after a command. -/
structure CmdPost (l : Level) (c : Client) (r : Srv × Client) (M : Mem) : Prop where
  holds : Holds l (srvO r.1 + clO r.2) M
  ok : SrvOk r.1
  ns : NsOk r.1.spaces r.2
  same : Same c r.2

theorem av_req {o : Own} {c : Client} (e : ∀ x, clO c x ≤ o x) : Av o c.reqBlocks := by
  refine Av.of_le fun x => Nat.le_trans ?_ (e x)
  simp only [clO, Client.blocks]
  owna

theorem av_resp {o : Own} {c : Client} (e : ∀ x, clO c x ≤ o x) : Av o (respBlocks c.resp) := by
  refine Av.of_le fun x => Nat.le_trans ?_ (e x)
  simp only [clO, Client.blocks]
  owna

theorem ga_of {o : Own} {s : Srv} (e : ∀ x, glO s x ≤ o x) : GA o s := by
  have hb : ∀ b ∈ s.globals, 1 ≤ o b := Av.of_le e
  refine ⟨?_, ?_, ?_, ?_, ?_⟩ <;> exact hb _ (by simp [Srv.globals])

theorem sa_mem {o : Own} {ls : List Space} {sp : Space} (hs : sp ∈ ls) (hm : ModeOk sp) (e : ∀ x, spsO ls x ≤ o x) :
    SA o sp := by
  refine SA.of hm fun x => Nat.le_trans ?_ (e x)
  obtain ⟨a, b, rfl⟩ := List.append_of_mem hs
  owsa

section
variable {l : Level} {M : Mem} {s : Srv} {c : Client}

/-- Between two events, with one client apart. -/
structure Ctx (l : Level) (s : Srv) (c : Client) (M : Mem) : Prop where
  holds : Holds l (srvO s + clO c) M
  ok : SrvOk s
  ns : NsOk s.spaces c

theorem ext_post {q : List Resp} {c' : Client} (ok : SrvOk s) (ns : NsOk s.spaces c) {M' : Mem}
    (h : Ext l (srvO s + clO c) c.resp q M') (e : c' = { c with resp := q }) : CmdPost l c (s, c') M' := by
  obtain ⟨e, rfl, h⟩ := h
  subst e
  refine ⟨h.re ?_, ok, ns, ⟨rfl, rfl, rfl, rfl, rfl, rfl, rfl⟩⟩
  owc

theorem wp_inSpace {p : Nat} {f : Space → List Resp → Prog (Space × List Resp)} (hx : Ctx l s c M) (hp : c.ns = some p)
    (hf : ∀ sp F M, (∀ x, clO c x ≤ F x) → (∀ x, glO s x ≤ F x) → ModeOk sp → Holds l (F + spO sp) M →
      wp l (f sp c.resp) (UpdExt l F c.resp sp) M) : wp l (inSpace s c p f) (CmdPost l c) M := by
  unfold inSpace
  refine wp_call (wp_onSpace (P := fun o q M => Ext l o c.resp q M) s.spaces (glO s + clsO s.clients + clO c) M
    (hx.ns p hp) hx.ok.mode (hx.holds.re ?_) ?_) ?_
  · intro x
    simp only [srvO_ap, add_ap]
    omega
  · intro sp F M hF hm h
    refine wp_mono (hf sp F M (fun x => Nat.le_trans ?_ (hF x)) (fun x => Nat.le_trans ?_ (hF x)) hm h) ?_
    · simp only [add_ap]; omega
    · simp only [add_ap]; omega
    · exact fun r M h => h
  · rintro ⟨ls, q⟩ M ⟨⟨e, rfl, h⟩, hids, hm⟩
    refine ⟨h.re ?_, ⟨hm, ?_, hx.ok.cl⟩, ?_, ⟨rfl, rfl, rfl, rfl, rfl, rfl, rfl⟩⟩
    · intro x
      simp only [srvO_ap, add_ap, glO_ap, clO_ap, rs_append]
      omega
    · intro d hd p hp
      have := hx.ok.ns d hd p hp
      simp only [hids]
      exact this
    · intro p hp
      have := hx.ns p hp
      simp only [hids]
      exact this

theorem wp_reads {f : Space → List Resp → Prog (List Resp)} {sp : Space} {F : Own} {q : List Resp} (hm : ModeOk sp)
    (h : Holds l (F + spO sp) M) (hf : wp l (f sp q) (Ext l (F + spO sp) q) M) :
    wp l (reads f sp q) (UpdExt l F q sp) M := by
  unfold reads
  refine wp_useb h (by owsa) ?_
  exact wp_call hf fun q' M h => ⟨h, rfl, hm⟩

theorem wp_named {n : Nat} {f : Space → List Resp → Prog (Space × List Resp)} (hx : Ctx l s c M) (hc : Req c)
    (hn : 1 ≤ n)
    (hf : ∀ sp F M, (∀ x, clO c x ≤ F x) → ModeOk sp → Holds l (F + spO sp) M →
      wp l (f sp c.resp) (UpdExt l F c.resp sp) M) {k : Srv × List Resp → Prog (Srv × Client)}
    (hk : ∀ s q, k (s, q) = pure (s, { c with resp := q })) :
    wp l (named s c n f c.resp >>= k) (CmdPost l c) M := by
  have h := hx.holds
  have ac : Av (srvO s + clO c) c.reqBlocks := av_req (by own)
  have aq : Av (srvO s + clO c) (respBlocks c.resp) := av_resp (by own)
  have fin : ∀ q' M', Ext l (srvO s + clO c) c.resp q' M' → wp l (k (s, q')) (CmdPost l c) M' := by
    intro q' M' h
    rw [hk]
    exact ext_post hx.ok hx.ns h rfl
  rw [wp_bind]
  unfold named
  refine wp_check h aq ?_ fin
  simp only [Bool.not_true, Bool.false_eq_true, if_false]
  refine wp_validate h hc ac aq (fun hn => ?_) fin
  simp only [Bool.not_true, Bool.false_eq_true, if_false]
  refine wp_argsFrom h hc ac ?_ _ _ (by omega)
  refine wp_check h aq ?_ fin
  simp only [Bool.not_true, Bool.false_eq_true, if_false]
  refine wp_namespaceGet h ?_ _ (fun sp hs => sa_mem hs (hx.ok.mode sp hs) fun x => by simp only [srvO_ap, add_ap]; omega) ?_
  · refine wp_call (wp_replyStack h aq) fin
  · intro sp hsp
    refine wp_call (wp_onSpace (P := fun o q M => Ext l o c.resp q M) s.spaces (glO s + clsO s.clients + clO c) M
      (List.mem_map.2 ⟨sp, hsp, rfl⟩) hx.ok.mode (h.re ?_) ?_) ?_
    · intro x
      simp only [srvO_ap, add_ap]
      omega
    · intro sp F M hF hm h
      refine wp_mono (hf sp F M (fun x => Nat.le_trans ?_ (hF x)) hm h) ?_
      · simp only [add_ap]; omega
      · exact fun r M h => h
    · rintro ⟨ls, q⟩ M ⟨⟨e, rfl, h⟩, hids, hm⟩
      show wp l (k _) _ _
      rw [hk]
      refine ⟨h.re ?_, ⟨hm, ?_, hx.ok.cl⟩, ?_, ⟨rfl, rfl, rfl, rfl, rfl, rfl, rfl⟩⟩
      · intro x
        simp only [srvO_ap, add_ap, glO_ap, clO_ap, rs_append]
        omega
      · intro d hd p hp
        have := hx.ok.ns d hd p hp
        simp only [hids]
        exact this
      · intro p hp
        have := hx.ns p hp
        simp only [hids]
        exact this

theorem wp_cmdNsnew (hx : Ctx l s c M) (hc : Req c) :
    wp l (do
      let (s, q) ← cmdNsnew s c c.resp
      pure (s, { c with resp := q })) (CmdPost l c) M := by
  have h := hx.holds
  have ac : Av (srvO s + clO c) c.reqBlocks := av_req (by own)
  have aq : Av (srvO s + clO c) (respBlocks c.resp) := av_resp (by own)
  have fin : ∀ q' M', Ext l (srvO s + clO c) c.resp q' M' →
      wp l (pure (s, { c with resp := q' })) (CmdPost l c) M' := fun q' M' h => ext_post hx.ok hx.ns h rfl
  rw [wp_bind]
  unfold cmdNsnew
  refine wp_check h aq ?_ fin
  simp only [Bool.not_true, Bool.false_eq_true, if_false]
  refine wp_validate h hc ac aq (fun hn => ?_) fin
  simp only [Bool.not_true, Bool.false_eq_true, if_false]
  ar
  refine wp_check h aq ?_ fin
  simp only [Bool.not_true, Bool.false_eq_true, if_false]
  refine wp_namespaceGet h ?_ _ (fun sp hs => sa_mem hs (hx.ok.mode sp hs) fun x => by simp only [srvO_ap, add_ap]; omega) ?_
  · refine wp_useb h (by owca) ?_
    refine wp_namespaceLoad h (fun M h => ?_) (fun sp M hm h => ?_)
    · exact wp_call (wp_replyStack h aq) fin
    · as a
      have last : ∀ nl M, Holds l (srvO { s with nslist := nl, spaces := s.spaces ++ [sp] } + clO c) M →
          wp l (do
            useb nl
            let q ← replyStack c.resp
            pure ({ s with nslist := nl, spaces := s.spaces ++ [sp] }, q))
            (fun r M => wp l (pure (r.1, { c with resp := r.2 })) (CmdPost l c) M) M := by
        intro nl M h
        refine wp_useb h (by owca) ?_
        refine wp_call (wp_replyStack h (av_resp (by own))) ?_
        intro q' M h
        have sub : ∀ d, NsOk s.spaces d → NsOk (s.spaces ++ [sp]) d := by
          intro d hd p hp
          have := hd p hp
          simp only [spaceIds, List.map_append, List.mem_append] at this ⊢
          exact .inl this
        exact ext_post (s := { s with nslist := nl, spaces := s.spaces ++ [sp] }) ⟨by
          intro x hx1
          rcases List.mem_append.1 hx1 with h1 | h1
          · exact hx.ok.mode x h1
          · rw [List.mem_singleton.1 h1]; exact hm, fun d hd => sub d (hx.ok.ns d hd), hx.ok.cl⟩ (sub c hx.ns) h rfl
      br
      · exact last s.nslist M (h.re fun x => by simp only [srvO_ap, add_ap, glO_ap, spsO_append, spsO_cons, spsO_nil]; omega)
      · refine wp_realloc h (by owca) fun nl M h => ?_
        exact last nl M (h.re fun x => by simp only [srvO_ap, add_ap, sub_ap, glO_ap, spsO_append, spsO_cons, spsO_nil]; omega)
  · intro sp hsp
    exact wp_call (wp_replyStack h aq) fin

theorem mem_detach {p : Nat} : ∀ {l : List Client} {d : Client}, d ∈ detach p l → ∃ e ∈ l, d = e ∧ e.ns ≠ some p ∨
    d = { e with ns := none } ∧ e.ns = some p := by
  intro l
  induction l with
  | nil => intro d hd; simp [detach] at hd
  | cons a l ih =>
    intro d hd
    simp only [detach, List.mem_cons] at hd
    rcases hd with rfl | hd
    · by_cases e : a.ns = some p
      · exact ⟨a, by simp, .inr ⟨by simp [e], e⟩⟩
      · exact ⟨a, by simp, .inl ⟨by simp [e], e⟩⟩
    · obtain ⟨e, he, h⟩ := ih hd
      exact ⟨e, by simp [he], h⟩

theorem clsO_detach {p : Nat} : ∀ (l : List Client) (x : Nat), clsO (detach p l) x = clsO l x := by
  intro l
  induction l with
  | nil => intro x; rfl
  | cons a l ih =>
    intro x
    rw [detach, clsO_cons, clsO_cons, ih]
    split
    · rfl
    · rfl

theorem wp_eachSelf {o : Own} {β : Type} {Q : β → Mem → Prop} {k : Unit → Prog β} (h : Holds l o M) (hk : wp l (k ()) Q M) :
    ∀ (ls : List Client), (∀ d ∈ ls, 1 ≤ o d.self) → wp l (each (fun d : Client => useb d.self) ls >>= k) Q M := by
  intro ls hls
  refine wp_each (fun as M' => M' = M ∧ ∀ d ∈ as, 1 ≤ o d.self) ?_ ?_ ls M ⟨rfl, hls⟩
  · rintro a as M' ⟨rfl, ha⟩
    exact ⟨h.live (ha a (by simp)), rfl, fun d hd => ha d (by simp [hd])⟩
  · rintro M' ⟨rfl, _⟩
    exact hk

theorem av_self {o : Own} {ls : List Client} {d : Client} (hd : d ∈ ls) (e : ∀ x, clsO ls x ≤ o x) : 1 ≤ o d.self := by
  refine Nat.le_trans ?_ (e _)
  obtain ⟨a, b, rfl⟩ := List.append_of_mem hd
  owca

theorem wp_cmdNsdel (hx : Ctx l s c M) (hc : Req c) :
    wp l (do
      let (s, q) ← cmdNsdel s c c.resp
      pure (s, { c with resp := q })) (CmdPost l c) M := by
  have h := hx.holds
  have ac : Av (srvO s + clO c) c.reqBlocks := av_req (by own)
  have aq : Av (srvO s + clO c) (respBlocks c.resp) := av_resp (by own)
  have fin : ∀ q' M', Ext l (srvO s + clO c) c.resp q' M' →
      wp l (pure (s, { c with resp := q' })) (CmdPost l c) M' := fun q' M' h => ext_post hx.ok hx.ns h rfl
  rw [wp_bind]
  unfold cmdNsdel
  refine wp_check h aq ?_ fin
  simp only [Bool.not_true, Bool.false_eq_true, if_false]
  refine wp_validate h hc ac aq (fun hn => ?_) fin
  simp only [Bool.not_true, Bool.false_eq_true, if_false]
  ar
  refine wp_check h aq ?_ fin
  simp only [Bool.not_true, Bool.false_eq_true, if_false]
  refine wp_namespaceGet h ?_ _ (fun sp hs => sa_mem hs (hx.ok.mode sp hs) fun x => by simp only [srvO_ap, add_ap]; omega) ?_
  · exact wp_call (wp_replyStack h aq) fin
  · intro sp hsp
    br
    · exact wp_call (wp_replyStack h aq) fin
    refine wp_useb h (by owca) ?_
    refine wp_eachSelf h ?_ _ fun d hd => av_self hd fun x => by simp only [srvO_ap, add_ap]; omega
    refine wp_call (wp_dropSpace s.spaces (glO s + clsO s.clients + clO c) M (List.mem_map.2 ⟨sp, hsp, rfl⟩) hx.ok.mode
      (h.re fun x => by simp only [srvO_ap, add_ap]; omega)) ?_
    rintro ls M ⟨h, hids, hm⟩
    have h' : Holds l (srvO { s with clients := detach sp.self s.clients, spaces := ls } + clO c) M := by
      refine h.re fun x => ?_
      simp only [srvO_ap, add_ap, clsO_detach, glO_ap]
      omega
    refine wp_call (wp_replyStack h' (av_resp (by own))) fun q' M h => ?_
    refine ext_post (s := { s with clients := detach sp.self s.clients, spaces := ls }) ⟨hm, ?_, ?_⟩ ?_ h rfl
    · intro d hd p hp
      obtain ⟨e, he, ⟨rfl, hne⟩ | ⟨rfl, _⟩⟩ := mem_detach hd
      · exact hids p (hx.ok.ns d he p hp) (fun e => hne (by rw [hp, e]))
      · simp at hp
    · intro d hd
      obtain ⟨e, he, ⟨rfl, hne⟩ | ⟨rfl, _⟩⟩ := mem_detach hd
      · exact hx.ok.cl d he
      · exact hx.ok.cl e he
    · intro p hp
      exact hids p (hx.ns p hp) (fun e => hi (by rw [hp, e]))

theorem wp_selectCheck {o : Own} {q : List Resp} {sp : Space} {β : Type} {Q : β → Mem → Prop}
    {k : Bool × List Resp → Prog β} (h : Holds l o M) (hc : Req c) (ac : Av o c.reqBlocks)
    (an : ∀ n, c.nonce = some n → 1 ≤ o n) (asp : SA o sp) (aq : Av o (respBlocks q))
    (hf : ∀ b q' M', Ext l o q q' M' → wp l (k (b, q')) Q M') : wp l (selectCheck c sp q >>= k) Q M := by
  rw [wp_bind]
  unfold selectCheck
  refine wp_useb h asp.self ?_
  cases e : sp.pass with
  | none => exact hf _ _ _ (Ext.rfl h)
  | some pw =>
    have hp := asp.pass pw e
    br
    · exact wp_tail (wp_check h aq (hf _ _ _ (Ext.rfl h)) (hf _))
    br
    · exact wp_call (wp_replyStack h aq) (hf _)
    br
    · ar
      refine wp_useb h hp ?_
      exact wp_tail (wp_check h aq (hf _ _ _ (Ext.rfl h)) (hf _))
    · ar
      refine wp_check h aq ?_ (hf _)
      simp only [Bool.not_true, Bool.false_eq_true, if_false]
      cases en : c.nonce with
      | none => exact wp_call (wp_replyStack h aq) (hf _)
      | some n =>
        have hn := an n en
        ar
        refine wp_check h aq ?_ (hf _)
        simp only [Bool.not_true, Bool.false_eq_true, if_false]
        refine wp_useb h hn ?_
        refine wp_useb h hp ?_
        al t
        us
        fr
        al e
        us
        as a
        br
        · fr
          refine wp_call (wp_replyStack h (aq.mono (by own))) fun q' M h => hf _ _ _ (h.re (by own))
        · fr
          exact hf _ _ _ (Ext.rfl (h.re (by own)))

theorem av_nonce {o : Own} {c : Client} (e : ∀ x, clO c x ≤ o x) : ∀ n, c.nonce = some n → 1 ≤ o n := by
  intro n hn
  refine Nat.le_trans ?_ (e n)
  rw [clO_ap, hn, cnt_toList_some, one_self]
  omega

theorem wp_onSame {α : Type} {f : Space → Prog (Space × α)} {p : Nat} {P : α → Mem → Prop} :
    ∀ (ls : List Space), p ∈ spaceIds ls → (∀ sp ∈ ls, wp l (f sp) (fun r M => r.1 = sp ∧ P r.2 M) M) →
      wp l (onSpace p f ls) (fun r M => r.1 = ls ∧ P r.2 M) M := by
  intro ls
  induction ls with
  | nil => intro hp; simp [spaceIds] at hp
  | cons sp ls ih =>
    intro hp hf
    unfold onSpace
    br
    · refine wp_call (hf sp (by simp)) ?_
      rintro ⟨sp', a⟩ M ⟨e, hP⟩
      simp only at e
      subst e
      exact ⟨rfl, hP⟩
    · have hp' : p ∈ spaceIds ls := by
        simp only [spaceIds, List.map_cons, List.mem_cons] at hp
        rcases hp with rfl | hp
        · exact absurd rfl hi
        · exact hp
      refine wp_call (ih hp' fun sp' hs => hf sp' (by simp [hs])) ?_
      rintro ⟨ls', a⟩ M ⟨e, hP⟩
      simp only at e
      subst e
      exact ⟨rfl, hP⟩

theorem wp_cmdSelect (hx : Ctx l s c M) (hc : Req c) :
    wp l (do
      let (n, q) ← cmdSelect s c c.resp
      pure (s, { c with ns := n, resp := q })) (CmdPost l c) M := by
  have h := hx.holds
  have ac : Av (srvO s + clO c) c.reqBlocks := av_req (by own)
  have aq : Av (srvO s + clO c) (respBlocks c.resp) := av_resp (by own)
  have fin : ∀ n q' M', (∀ p, n = some p → p ∈ spaceIds s.spaces) → Ext l (srvO s + clO c) c.resp q' M' →
      wp l (pure (s, { c with ns := n, resp := q' })) (CmdPost l c) M' := by
    intro n q' M' hn h
    obtain ⟨e, rfl, h⟩ := h
    refine ⟨h.re ?_, hx.ok, hn, ⟨rfl, rfl, rfl, rfl, rfl, rfl, rfl⟩⟩
    owc
  rw [wp_bind]
  unfold cmdSelect
  br
  · exact wp_call (wp_replyStack h aq) fun q M h => fin c.ns q M hx.ns h
  ar
  refine wp_check h aq ?_ fun q M h => fin c.ns q M hx.ns h
  simp only [Bool.not_true, Bool.false_eq_true, if_false]
  refine wp_namespaceGet h ?_ _ (fun sp hs => sa_mem hs (hx.ok.mode sp hs) fun x => by simp only [srvO_ap, add_ap]; omega) ?_
  · exact wp_call (wp_replyStack h aq) fun q M h => fin c.ns q M hx.ns h
  intro sp hsp
  have hmem : sp.self ∈ spaceIds s.spaces := List.mem_map.2 ⟨sp, hsp, rfl⟩
  refine wp_call (wp_onSame (P := fun r M => Ext l (srvO s + clO c) c.resp r.2 M) s.spaces hmem ?_) ?_
  · intro sp' hs'
    exact wp_selectCheck h hc ac (av_nonce (by own)) (sa_mem hs' (hx.ok.mode sp' hs')
      fun x => by simp only [srvO_ap, add_ap]; omega) aq fun b q' M' h => ⟨rfl, h⟩
  · rintro ⟨ls, b, q'⟩ M ⟨_, h⟩
    simp only at h
    br
    · exact fin c.ns q' M hx.ns h
    · obtain ⟨e, rfl, h⟩ := h
      refine wp_call (wp_replyStack h aq.ext) fun q' M h => fin _ _ _ ?_ h.trans
      intro p hp
      cases hp
      exact hmem

theorem wp_cmdAuth (hx : Ctx l s c M) (hc : Req c) :
    wp l (do
      let (n, q) ← cmdAuth c c.resp
      pure (s, { c with nonce := n, resp := q })) (CmdPost l c) M := by
  have h := hx.holds
  have ac : Av (srvO s + clO c) c.reqBlocks := av_req (by own)
  have aq : Av (srvO s + clO c) (respBlocks c.resp) := av_resp (by own)
  have an : ∀ n, c.nonce = some n → 1 ≤ (srvO s + clO c) n := av_nonce (by own)
  have fin : ∀ n q' M', Ext l (srvO s + clO { c with nonce := n }) c.resp q' M' →
      wp l (pure (s, { c with nonce := n, resp := q' })) (CmdPost l c) M' := by
    intro n q' M' h
    obtain ⟨e, rfl, h⟩ := h
    refine ⟨h.re ?_, hx.ok, hx.ns, ⟨rfl, rfl, rfl, rfl, rfl, rfl, rfl⟩⟩
    owc
  have fin' : ∀ q' M', Ext l (srvO s + clO c) c.resp q' M' →
      wp l (pure (s, { c with nonce := c.nonce, resp := q' })) (CmdPost l c) M' := fun q' M' h => fin c.nonce q' M' h
  rw [wp_bind]
  unfold cmdAuth
  br
  · refine wp_check h aq ?_ fin'
    simp only [Bool.not_true, Bool.false_eq_true, if_false]
    refine wp_validate h hc ac aq (fun hn => ?_) fin'
    simp only [Bool.not_true, Bool.false_eq_true, if_false]
    ar
    exact wp_call (wp_replyStack h aq) fin'
  refine wp_validate h hc ac aq (fun hn => ?_) fin'
  simp only [Bool.not_true, Bool.false_eq_true, if_false]
  ar
  refine wp_check h aq ?_ fin'
  simp only [Bool.not_true, Bool.false_eq_true, if_false]
  ar
  as a
  br
  · as a
    br
    · exact wp_call (wp_replyStack h aq) fin'
    al n
    us
    refine wp_free h (fun b hb => ?_) fun M h => ?_
    · have := an b hb
      owna
    have h' : Holds l (srvO s + clO { c with nonce := some n }) M := by
      refine h.re fun x => ?_
      simp only [add_ap, sub_ap, clO_ap, cnt_toList_some]
      omega
    refine wp_useb h' (by owca) ?_
    exact wp_call (wp_replyStack h' (av_resp (c := { c with nonce := some n }) (by own))) (fin (some n))
  refine wp_check h aq ?_ fin'
  simp only [Bool.not_true, Bool.false_eq_true, if_false]
  cases en : c.nonce with
  | none =>
    refine wp_call (wp_replyStack h aq) fun q' M' h => ?_
    have := fin' q' M' h
    rw [en] at this
    exact this
  | some n =>
    have hn' := an n en
    refine wp_useb h hn' ?_
    refine wp_check h aq ?_ fun q' M' h => ?_
    · simp only [Bool.not_true, Bool.false_eq_true, if_false]
      refine wp_useb h hn' ?_
      al t
      us
      fr
      al e
      us
      refine wp_call (wp_replyStack h (aq.mono (by own))) fun q' M h => ?_
      obtain ⟨f, rfl, h⟩ := h
      fr
      have hn2 : 1 ≤ (rs f + (one e + (one t + (srvO s + clO c) - one t)) - one e) n := by
        owna
      refine wp_freeb h hn2 fun M h => ?_
      refine fin none _ _ ⟨f, rfl, h.re fun x => ?_⟩
      simp only [add_ap, sub_ap, clO_ap, en, cnt_toList_some, cnt_toList_none]
      omega
    · have := fin' q' M' h
      rw [en] at this
      exact this

theorem wp_cmdWait (hx : Ctx l s c M) (hc : Req c) :
    wp l (do
      let (w, q) ← cmdWait c c.resp
      pure (s, { c with watching := w, resp := q })) (CmdPost l c) M := by
  have h := hx.holds
  have ac : Av (srvO s + clO c) c.reqBlocks := av_req (by own)
  have aq : Av (srvO s + clO c) (respBlocks c.resp) := av_resp (by own)
  have fin : ∀ w q' M', Ext l (srvO s + clO c) c.resp q' M' →
      wp l (pure (s, { c with watching := w, resp := q' })) (CmdPost l c) M' := by
    intro w q' M' h
    obtain ⟨e, rfl, h⟩ := h
    refine ⟨h.re ?_, hx.ok, hx.ns, ⟨rfl, rfl, rfl, rfl, rfl, rfl, rfl⟩⟩
    owc
  rw [wp_bind]
  unfold cmdWait
  br
  · exact wp_call (wp_replyStack h aq) (fin _)
  ar
  refine wp_check h aq ?_ (fin _)
  simp only [Bool.not_true, Bool.false_eq_true, if_false]
  br
  · ar
    refine wp_check h aq ?_ (fin _)
    exact fin _ _ _ (Ext.rfl h)
  · refine wp_check h aq ?_ (fin _)
    exact fin _ _ _ (Ext.rfl h)

theorem wp_nslist : ∀ (ls : List Space) (q : List Resp) (M : Mem) (o : Own), (∀ sp ∈ ls, SA o sp) → Holds l o M →
    Av o (respBlocks q) → wp l (nslist ls q) (Ext l o q) M := by
  intro ls
  induction ls with
  | nil => intro q M o _ h _; exact Ext.rfl h
  | cons sp ls ih =>
    intro q M o hs h aq
    unfold nslist
    refine wp_useb h (hs sp (by simp)).self ?_
    refine wp_useb h (hs sp (by simp)).name ?_
    refine wp_call (wp_replyStack h aq) fun q' M h => ?_
    obtain ⟨e, rfl, h⟩ := h
    refine wp_mono (ih _ M _ (fun sp' hs' => (hs sp' (by simp [hs'])).mono ?_) h aq.ext) ?_
    · own
    · exact fun r M h => h.trans

theorem wp_prog (hl : l ≠ .any) {p : Nat} (hx : Ctx l s c M) (hc : Req c) (hz : 0 < c.argc) (hp : c.ns = some p) (k : Cmd) :
    wp l (k.prog s c p) (CmdPost l c) M := by
  have h := hx.holds
  have ac : Av (srvO s + clO c) c.reqBlocks := av_req (by own)
  have aq : Av (srvO s + clO c) (respBlocks c.resp) := av_resp (by own)
  have fin : ∀ q' M', Ext l (srvO s + clO c) c.resp q' M' →
      wp l (pure (s, { c with resp := q' })) (CmdPost l c) M' := fun q' M' h => ext_post hx.ok hx.ns h rfl
  have rd : ∀ (f : Space → List Resp → Prog (List Resp)), (∀ sp (o : Own) M, Holds l o M → Av o c.reqBlocks → SA o sp →
      GA o s → Av o (respBlocks c.resp) → wp l (f sp c.resp) (Ext l o c.resp) M) →
      wp l (inSpace s c p (reads f)) (CmdPost l c) M := by
    intro f hf
    refine wp_inSpace hx hp fun sp F M hcl hgl hm h => wp_reads hm h (hf sp _ M h ?_ ?_ ?_ ?_)
    · exact av_req fun x => Nat.le_trans (hcl x) (by owna)
    · exact SA.of hm (by own)
    · exact ga_of fun x => Nat.le_trans (hgl x) (by owna)
    · exact av_resp fun x => Nat.le_trans (hcl x) (by owna)
  cases k with
  | wait => exact wp_cmdWait hx hc
  | mirror =>
    refine wp_check h aq ?_ fin
    simp only [Bool.not_true, Bool.false_eq_true, if_false]
    refine wp_call (wp_replyStack h aq) fun q' M' h => ?_
    obtain ⟨e, rfl, h⟩ := h
    refine ⟨h.re ?_, hx.ok, hx.ns, ⟨rfl, rfl, rfl, rfl, rfl, rfl, rfl⟩⟩
    owc
  | master =>
    refine wp_check h aq ?_ fin
    simp only [Bool.not_true, Bool.false_eq_true, if_false]
    refine wp_call (wp_replyStack h aq) fun q' M' h => ?_
    obtain ⟨e, rfl, h⟩ := h
    refine ⟨h.re ?_, hx.ok, hx.ns, ⟨rfl, rfl, rfl, rfl, rfl, rfl, rfl⟩⟩
    owc
  | auth => exact wp_cmdAuth hx hc
  | hooks => exact wp_call (wp_cmdHooks h aq) fin
  | index => exact rd _ fun sp o M h ac asp ag aq => wp_cmdIndex h hc ac asp aq
  | data => exact rd _ fun sp o M h ac asp ag aq => wp_cmdData h hc ac asp aq
  | set =>
    exact wp_inSpace hx hp fun sp F M hcl hgl hm h => wp_cmdSet h hm hc (av_req hcl) (ga_of hgl) (av_resp hcl)
  | get => exact rd _ fun sp o M h ac asp ag aq => wp_cmdGet h hc ac asp ag aq
  | mget => exact rd _ fun sp o M h ac asp ag aq => wp_cmdMget h hc ac asp ag aq
  | del => exact rd _ fun sp o M h ac asp ag aq => wp_cmdDel h hc ac asp ag aq
  | lookup => exact rd _ fun sp o M h ac asp ag aq => wp_cmdLookup h hc ac asp ag aq
  | check => exact rd _ fun sp o M h ac asp ag aq => wp_cmdCheck h hc ac asp ag aq
  | scan => exact rd _ fun sp o M h ac asp ag aq => wp_cmdScan h hc ac asp hz aq
  | kscan => exact rd _ fun sp o M h ac asp ag aq => wp_cmdKscan h hc ac asp aq
  | history => exact rd _ fun sp o M h ac asp ag aq => wp_cmdHistory hl h hc ac asp ag aq
  | info => exact wp_call (wp_cmdInfo h aq) fin
  | text => exact rd _ fun sp o M h ac asp ag aq => wp_cmdText h asp aq
  | nsnew => exact wp_cmdNsnew hx hc
  | nsdel => exact wp_cmdNsdel hx hc
  | nsset =>
    exact wp_named hx hc (by omega) (fun sp F M hcl hm h => wp_nsset h hm (av_resp hcl)) fun _ _ => rfl
  | nsinfo =>
    refine wp_named hx hc (by omega) (fun sp F M hcl hm h => wp_reads hm h (wp_nsinfo h (SA.of hm (by own)) ?_))
      fun _ _ => rfl
    exact av_resp fun x => Nat.le_trans (hcl x) (by owna)
  | nsjump =>
    unfold Cmd.prog
    refine wp_inSpace hx hp fun sp F M hcl hgl hm h => ?_
    have aq : Av F (respBlocks c.resp) := av_resp hcl
    refine wp_check h (aq.mono (by own)) ?_ fun q' M' h => ⟨h, rfl, hm⟩
    simp only [Bool.not_true, Bool.false_eq_true, if_false]
    refine wp_jump h hm fun sp' M ⟨h, e, hm'⟩ => ?_
    exact wp_call (wp_replyStack h (aq.mono (by own))) fun q' M' h => ⟨h, e, hm'⟩
  | select => exact wp_cmdSelect hx hc
  | reload =>
    refine wp_named hx hc (by omega) (fun sp F M hcl hm h => ?_) fun _ _ => rfl
    have aq : Av F (respBlocks c.resp) := av_resp hcl
    refine wp_reload h fun sp' M ⟨h, e, hm'⟩ => ?_
    exact wp_call (wp_replyStack h (aq.mono (by own))) fun q' M' h => ⟨h, e, hm'⟩
  | flush =>
    unfold Cmd.prog
    refine wp_inSpace hx hp fun sp F M hcl hgl hm h => ?_
    have aq : Av F (respBlocks c.resp) := av_resp hcl
    refine wp_useb h (by owsa) ?_
    refine wp_check h (aq.mono (by own)) ?_ fun q' M' h => ⟨h, rfl, hm⟩
    simp only [Bool.not_true, Bool.false_eq_true, if_false]
    refine wp_flush h fun sp' M ⟨h, e, hm'⟩ => ?_
    exact wp_call (wp_replyStack h (aq.mono (by own))) fun q' M' h => ⟨h, e, hm'⟩
  | nslist =>
    refine wp_useb h (by owca) ?_
    refine wp_call (wp_replyStack h aq) fun q' M h => ?_
    obtain ⟨e, rfl, h⟩ := h
    refine wp_call (wp_nslist s.spaces _ M _ (fun sp hs => sa_mem hs (hx.ok.mode sp hs) ?_) h aq.ext) fun q' M h => fin _ _ h.trans
    intro x
    simp only [srvO_ap, add_ap]
    omega

theorem Ctx.of {r : Srv × Client} (h : CmdPost l c r M) : Ctx l r.1 r.2 M := ⟨h.holds, h.ok, h.ns⟩

theorem Req.same {c' : Client} (hc : Req c) (h : Same c c') : Req c' where
  argv := by rw [h.argv]; exact hc.argv
  len := by rw [h.argc, h.args]; exact hc.len
  full := by rw [h.argc, h.args]; exact hc.full

theorem wp_dispatch (hl : l ≠ .any) (hx : Ctx l s c M) (hc : Req c) :
    wp l (dispatch s c) (fun r M => CmdPost l c (r.1, r.2.1) M) M := by
  have h := hx.holds
  have ac : Av (srvO s + clO c) c.reqBlocks := av_req (by own)
  have aq : Av (srvO s + clO c) (respBlocks c.resp) := av_resp (by own)
  have hu : wp l (use c.argv) (fun _ M' => M' = M) M := by
    obtain ⟨v, hv⟩ := hc.argv
    rw [hv]
    exact ⟨h.live (ac v (by simp [Client.reqBlocks, hv])), rfl⟩
  unfold dispatch
  refine wp_call hu ?_
  rintro _ M rfl
  cases e : c.ns with
  | none => exact wp_call (wp_replyStack h aq) fun q' M' h => ext_post hx.ok hx.ns h (by simp only [e])
  | some p =>
    br
    · exact wp_hazard hl
    · have hz : 0 < c.argc := by omega
      ar
      as a
      cases commands[a]? with
      | none => exact wp_call (wp_replyStack h aq) fun q' M' h => ext_post hx.ok hx.ns h (by simp only [e])
      | some k => exact wp_call (wp_prog hl hx hc hz e k) fun r M h => h

theorem wp_mirrorTo (hl : l ≠ .any) {o : Own} {q : List Resp} (h : Holds l o M) (hc : Req c) (ac : Av o c.reqBlocks)
    (asp : ∀ sp ∈ s.spaces, SA o sp) (hn : NsOk s.spaces c) (aq : Av o (respBlocks q)) :
    wp l (mirrorTo s c q) (Ext l o q) M := by
  unfold mirrorTo
  as a
  br
  · exact Ext.rfl h
  cases e : c.ns with
  | none => exact wp_hazard hl
  | some p =>
    refine wp_call (wp_onSame (P := fun _ M' => M' = M) s.spaces (hn p e) ?_) ?_
    · intro sp hs
      refine wp_useb h (asp sp hs).self ?_
      refine wp_useb h (asp sp hs).name ?_
      exact ⟨rfl, rfl⟩
    · rintro ⟨ls, _⟩ M' ⟨_, rfl⟩
      refine wp_argsFrom h hc ac ?_ _ _ (by omega)
      al b
      us
      refine wp_argsFrom h hc (ac.mono (by own)) ?_ _ _ (by omega)
      exact wp_replyHeap h aq

/-- The clients after the loop over them: each is as it was but for replies, and one that waits may be done. -/
theorem wp_postLoop (hl : l ≠ .any) (hc : Req c) (hn : NsOk s.spaces c) :
    ∀ (ds : List Client) (F : Own) (M : Mem), Av F c.reqBlocks → (∀ sp ∈ s.spaces, SA F sp) →
      Holds l (F + clsO ds) M → (∀ d ∈ ds, NsOk s.spaces d) → (∀ d ∈ ds, CInv d) →
      wp l (postLoop s c ds) (fun r M => Holds l (F + clsO r) M ∧ (∀ d ∈ r, NsOk s.spaces d) ∧ ∀ d ∈ r, CInv d) M := by
  intro ds
  induction ds with
  | nil => intro F M _ _ h h1 h2; exact ⟨h, h1, h2⟩
  | cons d ds ih =>
    intro F M ac asp h h1 h2
    have step : ∀ d' M, d'.ns = d.ns → CInv d' → Holds l (F + clO d' + clsO ds) M → wp l (do
        let l ← postLoop s c ds
        pure (d' :: l)) (fun r M => Holds l (F + clsO r) M ∧ (∀ d ∈ r, NsOk s.spaces d) ∧ ∀ d ∈ r, CInv d) M := by
      intro d' M e hi h
      refine wp_call (ih (F + clO d') M (ac.mono (by own)) (fun sp hs => (asp sp hs).mono (by own)) h
        (fun x hx => h1 x (by simp [hx])) (fun x hx => h2 x (by simp [hx]))) ?_
      rintro r M ⟨h, h1', h2'⟩
      refine ⟨h.re ?_, ?_, ?_⟩
      · intro x
        simp only [add_ap, clsO_cons]
        omega
      · intro x hx
        rcases List.mem_cons.1 hx with rfl | hx
        · intro p hp
          exact h1 d (by simp) p (by rw [← e]; exact hp)
        · exact h1' x hx
      · intro x hx
        rcases List.mem_cons.1 hx with rfl | hx
        · exact hi
        · exact h2' x hx
    have aq : Av (F + clsO (d :: ds)) (respBlocks d.resp) := av_resp fun x => by simp only [add_ap, clsO_cons]; omega
    have hd := h2 d (by simp)
    unfold postLoop
    refine wp_useb h (by owca) ?_
    br
    · refine wp_call (wp_mirrorTo hl h hc (ac.mono (by own)) (fun sp hs => (asp sp hs).mono (by own)) hn aq)
        fun q' M h => ?_
      obtain ⟨e, rfl, h⟩ := h
      refine step { d with resp := d.resp ++ e } M rfl hd (h.re fun x => ?_)
      simp only [add_ap, clsO_cons, clO_ap, rs_append]
      omega
    as a
    br
    · refine wp_call (wp_replyStack h aq) fun q' M h => ?_
      obtain ⟨e, rfl, h⟩ := h
      refine step { d with resp := d.resp ++ e, watching := false } M rfl hd (h.re fun x => ?_)
      simp only [add_ap, clsO_cons, clO_ap, rs_append]
      omega
    · refine step d M rfl hd (h.re fun x => ?_)
      simp only [add_ap, clsO_cons]
      omega

theorem wp_post (hl : l ≠ .any) (hx : Ctx l s c M) (hc : Req c) : wp l (post s c) (fun s' M => Ctx l s' c M) M := by
  unfold post
  as a
  br
  · exact hx
  refine wp_useb hx.holds (by owca) ?_
  refine wp_call (wp_postLoop hl hc hx.ns s.clients (glO s + spsO s.spaces + clO c) M (av_req (by own))
    (fun sp hs => sa_mem hs (hx.ok.mode sp hs) (by own)) (hx.holds.re fun x => ?_) hx.ok.ns hx.ok.cl) ?_
  · simp only [add_ap, srvO_ap]
    omega
  · rintro r M ⟨h, h1, h2⟩
    refine ⟨h.re fun x => ?_, ⟨hx.ok.mode, h1, h2⟩, hx.ns⟩
    simp only [add_ap, srvO_ap, glO_ap]
    omega

theorem wp_eachArg {F : Own} {β : Type} {Q : β → Mem → Prop} {k : Unit → Prog β} (as : List Arg) (h : Holds l (F + argsO as) M)
    (hk : ∀ M, Holds l F M → wp l (k ()) Q M) : wp l (each freeArg as >>= k) Q M := by
  refine wp_each (fun as M => Holds l (F + argsO as) M) ?_ (fun M h => hk M (h.re (by owc))) as M h
  clear h
  intro a as M h
  unfold freeArg
  refine wp_useb h (by owca) ?_
  refine wp_free h (fun b hb => ?_) fun M h => ?_
  · rw [add_ap, argsO_cons, hb, cnt_toList_some, one_self]
    omega
  · apply wp_tail
    refine wp_freeb h ?_ fun M h => ?_
    · simp only [sub_ap, add_ap, argsO_cons, one_self]
      omega
    · refine h.re ?_
      owc

/-- Without `argv` there are no arguments. -/
def Weak (c : Client) : Prop := c.argv = none → c.args = []

theorem wp_freeRequest {F : Own} {β : Type} {Q : β → Mem → Prop} {k : Client → Prog β} (h : Holds l (F + clO c) M)
    (hw : Weak c)
    (hk : ∀ M, Holds l (F + clO { c with argc := 0, argv := none, args := [] }) M →
      wp l (k { c with argc := 0, argv := none, args := [] }) Q M) : wp l (freeRequest c >>= k) Q M := by
  rw [wp_bind]
  unfold freeRequest
  refine wp_useb h (by owca) ?_
  cases e : c.argv with
  | none =>
    refine hk M (h.re fun x => ?_)
    have := hw e
    simp only [add_ap, clO_ap, e, this, List.take_nil]
  | some v =>
    refine wp_useb h (by simp only [add_ap, clO_ap, e, cnt_toList_some, one_self]; omega) ?_
    refine wp_eachArg (F := F + (clO c - argsO (c.args.take c.argc))) (c.args.take c.argc) (h.re fun x => ?_) fun M h => ?_
    · simp only [add_ap, sub_ap, clO_ap]
      omega
    · refine wp_freeb h ?_ fun M h => hk M (h.re fun x => ?_)
      · simp only [add_ap, sub_ap, clO_ap, e, cnt_toList_some, one_self]
        omega
      · simp only [add_ap, sub_ap, clO_ap, e, cnt_toList_some, cnt_toList_none, List.take_nil, argsO_nil]
        omega

theorem use_argv {F : Own} {β : Type} {Q : β → Mem → Prop} {k : Unit → Prog β} (h : Holds l (F + clO c) M)
    (hv : ∃ v, c.argv = some v) (hk : wp l (k ()) Q M) : wp l (use c.argv >>= k) Q M := by
  obtain ⟨v, hv⟩ := hv
  have hb : 1 ≤ (F + clO c) v := by
    simp only [add_ap, clO_ap, hv, cnt_toList_some, one_self]
    omega
  rw [hv]
  exact wp_use_some h hb hk

theorem wp_ownerid {F : Own} {β : Type} {Q : β → Mem → Prop} {k : Client × Bool → Prog β} (h : Holds l (F + clO c) M)
    (hc : Req c) (hz : 0 < c.argc) (hk1 : ∀ b, wp l (k (c, b)) Q M)
    (hk2 : ∀ M, Req { c with argc := c.argc - 1 } → Holds l (F + clO { c with argc := c.argc - 1 }) M →
      wp l (k ({ c with argc := c.argc - 1 }, false)) Q M) : wp l (ownerid c >>= k) Q M := by
  rw [wp_bind]
  unfold ownerid
  br
  · exact hk1 _
  refine use_argv h hc.argv ?_
  have hlt : c.argc - 1 < c.args.length := Nat.lt_of_lt_of_le (by omega) hc.len
  have ht : c.args.take c.argc = c.args.take (c.argc - 1) ++ [c.args[c.argc - 1]] := by
    have : c.argc = c.argc - 1 + 1 := by omega
    conv => lhs; rw [this]
    rw [List.take_add_one, List.getElem?_eq_getElem hlt]
    rfl
  obtain ⟨b, hb⟩ := hc.full (c.args[c.argc - 1]) (by rw [ht]; exact List.mem_append_right _ (List.mem_singleton_self _))
  rw [List.getElem?_eq_getElem hlt]
  have hO : ∀ x, clO c x = clO { c with argc := c.argc - 1 } x + one (c.args[c.argc - 1]).obj x + one b x := by
    intro x
    simp only [clO_ap, ht, argsO_append, argsO_cons, argsO_nil, hb, cnt_toList_some]
    omega
  generalize c.args[c.argc - 1] = a at *
  have ho := hO a.obj
  have hb' := hO b
  rw [one_self] at ho hb'
  refine wp_useb h (by simp only [add_ap]; omega) ?_
  as x
  br
  · exact hk1 _
  rw [hb]
  refine wp_use_some h (by simp only [add_ap]; omega) ?_
  refine wp_free_some h (by simp only [add_ap]; omega) fun M h => ?_
  refine wp_freeb h (by simp only [add_ap, sub_ap]; omega) fun M h => ?_
  refine hk2 M ⟨hc.argv, ?_, ?_⟩ (h.re fun x => ?_)
  · show c.argc - 1 ≤ c.args.length
    omega
  · intro a' ha'
    refine hc.full a' ?_
    rw [ht]
    exact List.mem_append_left _ ha'
  · have := hO x
    simp only [add_ap, sub_ap]
    omega

/-- Between two turns of the read loop. -/
structure Turn (l : Level) (s : Srv) (c : Client) (M : Mem) : Prop extends Ctx l s c M where
  inv : CInv c

theorem CInv.weak (h : CInv c) : Weak c := by
  intro e
  unfold CInv at h
  split at h
  · exact h.2
  · obtain ⟨⟨v, hv⟩, _⟩ := h
    rw [e] at hv
    cases hv
  · obtain ⟨⟨v, hv⟩, _⟩ := h
    rw [e] at hv
    cases hv

theorem Req.weak (h : Req c) : Weak c := by
  intro e
  obtain ⟨v, hv⟩ := h.argv
  rw [e] at hv
  cases hv

theorem wp_finished (hl : l ≠ .any) (hx : Ctx l s c M) (hc : Req c) (hz : 0 < c.argc) :
    wp l (finished s c) (fun r M => Turn l r.1 r.2.1 M) M := by
  have go : ∀ c M, Ctx l s c M → Req c → wp l (do
      let (s, c, gone) ← dispatch s c
      let s ← post s c
      let c ← freeRequest c
      pure (s, { c with phase := Phase.empty }, gone)) (fun r M => Turn l r.1 r.2.1 M) M := by
    intro c M hx hc
    refine wp_call (wp_dispatch hl hx hc) ?_
    rintro ⟨s, c', f⟩ M hp
    have hc' := hc.same hp.same
    refine wp_call (wp_post hl (Ctx.of hp) hc') ?_
    intro s M hx
    refine wp_freeRequest hx.holds hc'.weak fun M h => ?_
    exact ⟨⟨h, hx.ok, hx.ns⟩, rfl, rfl⟩
  unfold finished
  refine wp_ownerid hx.holds hc hz (fun b => ?_) fun M hc h => ?_
  · br
    · refine wp_freeRequest hx.holds hc.weak fun M h => ?_
      exact ⟨⟨h, hx.ok, hx.ns⟩, rfl, rfl⟩
    · exact go c M hx hc
  · exact go _ M ⟨h, hx.ok, hx.ns⟩ hc

/-- A part of the parser keeps the client; unless it is dropped, its state is right. -/
def PartPost (l : Level) (s : Srv) (P : Client → Prop) (r : Client × Bool × Fate) (M : Mem) : Prop :=
  Ctx l s r.1 M ∧ Weak r.1 ∧ (r.2.1 = true → P r.1 ∧ r.2.2 = .stays) ∧
    (r.2.1 = false → r.2.2 = .stays ∧ CInv r.1 ∨ r.2.2 = .dropped)

theorem resp_ctx {q : List Resp} (hx : Ctx l s c M) {M' : Mem} (h : Ext l (srvO s + clO c) c.resp q M') :
    Ctx l s { c with resp := q } M' := Ctx.of (ext_post hx.ok hx.ns h rfl)

theorem wp_respEmpty (hx : Ctx l s c M) (hi : CInv c) (he : c.phase = .empty) :
    wp l (respEmpty c) (PartPost l s fun c => c.phase = .header ∧ CInv c) M := by
  have h := hx.holds
  have hw := hi.weak
  have aq : Av (srvO s + clO c) (respBlocks c.resp) := av_resp (by own)
  have h0 : c.argv = none ∧ c.args = [] := by
    unfold CInv at hi
    rw [he] at hi
    exact hi
  unfold respEmpty
  refine wp_useb h (by owca) ?_
  as a
  match a with
  | 0 => exact ⟨hx, hw, by simp, fun _ => .inl ⟨rfl, hi⟩⟩
  | 1 => exact wp_call (wp_replyStack h aq) fun q' M h => ⟨resp_ctx hx h, hw, by simp, fun _ => .inr rfl⟩
  | 2 =>
    as n
    refine wp_call (wp_replyStack h aq) fun q' M h => ?_
    have hx' : Ctx l s { c with resp := q' } M := resp_ctx hx h
    refine ⟨⟨hx'.holds.re fun x => ?_, hx.ok, hx.ns⟩, hw, by simp, fun _ => .inl ⟨rfl, ?_⟩⟩
    · simp only [add_ap, clO_ap, h0.2, List.take_nil]
    · unfold CInv
      simp only [he]
      exact h0
  | 3 => exact wp_call (wp_replyStack h aq) fun q' M h => ⟨resp_ctx hx h, hw, by simp, fun _ => .inr rfl⟩
  | n + 4 =>
    al v
    refine ⟨⟨h.re fun x => ?_, hx.ok, hx.ns⟩, fun h => by simp at h, fun _ => ⟨⟨rfl, ⟨v, rfl⟩, ?_, by simp⟩, rfl⟩, by simp⟩
    · simp only [add_ap, clO_ap, h0.1, h0.2, List.take_nil, cnt_toList_some, cnt_toList_none]
      omega
    · show 0 < n + 4 - 3
      omega

theorem wp_respHeader (hx : Ctx l s c M) (hi : CInv c) (he : c.phase = .header) :
    wp l (respHeader c) (PartPost l s fun c => c.phase = .payload ∧ CInv c) M := by
  have h := hx.holds
  have hw := hi.weak
  have aq : Av (srvO s + clO c) (respBlocks c.resp) := av_resp (by own)
  have h0 : (∃ v, c.argv = some v) ∧ c.args.length < c.argc ∧ ∀ a ∈ c.args, ∃ b, a.buf = some b := by
    unfold CInv at hi
    rw [he] at hi
    exact hi
  have ht : ∀ a, (c.args ++ [a]).take c.argc = c.args ++ [a] := by
    intro a
    refine List.take_of_length_le ?_
    simp only [List.length_append, List.length_singleton]
    omega
  have ht' : c.args.take c.argc = c.args := List.take_of_length_le (by omega)
  unfold respHeader
  refine wp_useb h (by owca) ?_
  as a
  match a with
  | 0 => exact ⟨hx, hw, by simp, fun _ => .inl ⟨rfl, hi⟩⟩
  | 1 => exact wp_call (wp_replyStack h aq) fun q' M h => ⟨resp_ctx hx h, hw, by simp, fun _ => .inl ⟨rfl, hi⟩⟩
  | n + 2 =>
    al o
    refine use_argv (F := one o + srvO s) (h.re (by own)) h0.1 ?_
    us
    as a
    br
    · refine wp_call (wp_replyStack h (aq.mono (by own))) fun q' M h => ?_
      obtain ⟨e, rfl, h⟩ := h
      refine ⟨⟨h.re fun x => ?_, hx.ok, hx.ns⟩, ?_, by simp, fun _ => .inr rfl⟩
      · simp only [add_ap, clO_ap, ht, ht', argsO_append, argsO_cons, argsO_nil, cnt_toList_none, rs_append]
        omega
      · intro hn
        obtain ⟨⟨v, hv⟩, _⟩ := h0
        simp only [hv] at hn
        cases hn
    · al b
      refine ⟨⟨h.re fun x => ?_, hx.ok, hx.ns⟩, ?_, fun _ => ⟨⟨rfl, h0.1, ?_, ?_, ?_⟩, rfl⟩, by simp⟩
      · simp only [add_ap, clO_ap, ht, ht', argsO_append, argsO_cons, argsO_nil, cnt_toList_some]
        omega
      · intro hn
        obtain ⟨⟨v, hv⟩, _⟩ := h0
        simp only [hv] at hn
        cases hn
      · simp
      · simp only [List.length_append, List.length_singleton]
        omega
      · intro x hx
        rcases List.mem_append.1 hx with hx | hx
        · exact h0.2.2 x hx
        · rw [List.mem_singleton.1 hx]
          exact ⟨b, rfl⟩

theorem wp_respPayload (hx : Ctx l s c M) (hi : CInv c) (he : c.phase = .payload) :
    wp l (respPayload c) (PartPost l s fun c => c.phase = .header ∧ 0 < c.args.length ∧ c.args.length ≤ c.argc ∧
      (∃ v, c.argv = some v) ∧ ∀ a ∈ c.args, ∃ b, a.buf = some b) M := by
  have h := hx.holds
  have hw := hi.weak
  have h0 : (∃ v, c.argv = some v) ∧ c.args ≠ [] ∧ c.args.length ≤ c.argc ∧ ∀ a ∈ c.args, ∃ b, a.buf = some b := by
    unfold CInv at hi
    rw [he] at hi
    exact hi
  unfold respPayload
  refine wp_useb h (by owca) ?_
  refine use_argv h h0.1 ?_
  rw [List.getLast?_eq_some_getLast h0.2.1]
  have hmem := List.getLast_mem h0.2.1
  generalize c.args.getLast h0.2.1 = a at *
  obtain ⟨b, hb⟩ := h0.2.2.2 a hmem
  have hav : ∀ x, one a.obj x + one b x ≤ clO c x := by
    intro x
    have ht : c.args.take c.argc = c.args := List.take_of_length_le h0.2.2.1
    obtain ⟨as, bs, e⟩ := List.append_of_mem hmem
    rw [clO_ap, ht, e, argsO_append, argsO_cons, hb, cnt_toList_some]
    omega
  have h1 := hav a.obj
  have h2 := hav b
  rw [one_self] at h1 h2
  refine wp_useb h (by simp only [add_ap]; omega) ?_
  rw [hb]
  refine wp_use_some h (by simp only [add_ap]; omega) ?_
  as a
  br
  · exact ⟨hx, hw, by simp, fun _ => .inl ⟨rfl, by assumption⟩⟩
  · refine ⟨⟨h, hx.ok, hx.ns⟩, hw, fun _ => ⟨⟨rfl, List.length_pos_iff.2 h0.2.1, h0.2.2.1, h0.1, h0.2.2.2⟩, rfl⟩, by simp⟩

/-- The client after a turn. -/
def TurnPost (l : Level) (r : Srv × Client × Fate) (M : Mem) : Prop :=
  Ctx l r.1 r.2.1 M ∧ Weak r.2.1 ∧ (r.2.2 ≠ .dropped → CInv r.2.1)

theorem PartPost.off {P : Client → Prop} {f : Fate} (h : PartPost l s P (c, false, f) M) : TurnPost l (s, c, f) M := by
  obtain ⟨h1, h2, _, h3⟩ := h
  refine ⟨h1, h2, fun hf => ?_⟩
  rcases h3 rfl with h | h
  · exact h.2
  · exact absurd h hf

theorem wp_turn (hl : l ≠ .any) (hx : Turn l s c M) : wp l (turn s c) (TurnPost l) M := by
  have last : ∀ c M, Ctx l s c M → Weak c → (c.phase = .header ∧ 0 < c.args.length ∧ c.args.length ≤ c.argc ∧
      (∃ v, c.argv = some v) ∧ ∀ a ∈ c.args, ∃ b, a.buf = some b) →
      wp l (if c.phase = .header ∧ c.args.length = c.argc then finished s c else pure (s, c, Fate.stays)) (TurnPost l) M := by
    intro c M hx hw ⟨h1, h2, h3, h4, h5⟩
    br
    · refine wp_mono (wp_finished hl hx ⟨h4, by omega, ?_⟩ (by omega)) fun r M h => ⟨h.toCtx, h.inv.weak, fun _ => h.inv⟩
      intro a ha
      exact h5 a (List.mem_of_mem_take ha)
    · refine ⟨hx, hw, fun _ => ?_⟩
      unfold CInv
      simp only [h1]
      refine ⟨h4, ?_, h5⟩
      have : ¬ c.args.length = c.argc := fun e => hi ⟨h1, e⟩
      omega
  have third : ∀ c M, Ctx l s c M → c.phase = .payload → CInv c → wp l (do
      let (c, on, fate) ← if c.phase = .payload then respPayload c else pure (c, true, Fate.stays)
      if !on then pure (s, c, fate) else
        if c.phase = .header ∧ c.args.length = c.argc then finished s c
        else pure (s, c, Fate.stays)) (TurnPost l) M := by
    intro c M hx he hI
    br
    · refine wp_call (wp_respPayload hx hI he) ?_
      rintro ⟨c, on, f⟩ M hp
      cases on with
      | false => exact hp.off
      | true => exact last c M hp.1 hp.2.1 (hp.2.2.1 rfl).1
    · exact absurd he hi
  have second : ∀ c M, Ctx l s c M → c.phase ≠ .empty → CInv c → wp l (do
      let (c, on, fate) ← if c.phase = .header then respHeader c else pure (c, true, Fate.stays)
      if !on then pure (s, c, fate) else do
        let (c, on, fate) ← if c.phase = .payload then respPayload c else pure (c, true, Fate.stays)
        if !on then pure (s, c, fate) else
          if c.phase = .header ∧ c.args.length = c.argc then finished s c
          else pure (s, c, Fate.stays)) (TurnPost l) M := by
    intro c M hx he hI
    br
    · refine wp_call (wp_respHeader hx hI hi) ?_
      rintro ⟨c, on, f⟩ M hp
      cases on with
      | false => exact hp.off
      | true => exact third c M hp.1 (hp.2.2.1 rfl).1.1 (hp.2.2.1 rfl).1.2
    · refine third c M hx ?_ hI
      cases e : c.phase with
      | empty => exact absurd e he
      | header => exact absurd e hi
      | payload => rfl
  unfold turn
  br
  · refine wp_call (wp_respEmpty hx.toCtx hx.inv hi) ?_
    rintro ⟨c, on, f⟩ M hp
    cases on with
    | false => exact hp.off
    | true =>
      refine second c M hp.1 ?_ (hp.2.2.1 rfl).1.2
      rw [(hp.2.2.1 rfl).1.1]
      decide
  · exact second c M hx.toCtx hi hx.inv

theorem wp_chunk (hl : l ≠ .any) : ∀ n (s : Srv) (c : Client) (M : Mem), Turn l s c M →
    wp l (chunk n s c) (fun r M => Ctx l r.1 r.2.1 M ∧ Weak r.2.1 ∧ (r.2.2 = false → CInv r.2.1)) M := by
  intro n
  induction n with
  | zero =>
    intro s c M hx
    unfold chunk
    as a
    exact ⟨hx.toCtx, hx.inv.weak, fun _ => hx.inv⟩
  | succ n ih =>
    intro s c M hx
    have h := hx.holds
    unfold chunk
    refine wp_useb h (by owca) ?_
    refine wp_useb h (by owca) ?_
    refine wp_call (wp_turn hl hx) ?_
    rintro ⟨s, c, f⟩ M ⟨hx, hw, hI⟩
    cases f with
    | stays => exact ih s c M ⟨hx, hI (by simp)⟩
    | dropped => exact ⟨hx, hw, by simp⟩
    | doomed =>
      as a
      br
      · exact ⟨hx, hw, by simp⟩
      · exact ih s c M ⟨hx, hI (by simp)⟩

/-! ### the server -/

theorem wp_eachLose {F : Own} {β : Type} {Q : β → Mem → Prop} {k : Unit → Prog β} (q : List Resp)
    (h : Holds l (F + rs q) M) (hk : ∀ M, Holds l F M → wp l (k ()) Q M) : wp l (each loseResp q >>= k) Q M := by
  refine wp_each (fun q M => Holds l (F + rs q) M) ?_ (fun M h => hk M (h.re (by owc))) q M h
  clear h
  intro r q M h
  unfold loseResp
  refine wp_lose h (by owca) fun M h => ?_
  apply wp_tail
  refine wp_lose h ?_ fun M h => h.re ?_
  · simp only [sub_ap, add_ap, rs_cons, one_self]
    omega
  · owc

theorem wp_clientFree {F : Own} {β : Type} {Q : β → Mem → Prop} {k : Unit → Prog β} (h : Holds l (F + clO c) M)
    (hw : Weak c) (hk : ∀ M, Holds l F M → wp l (k ()) Q M) : wp l (clientFree c >>= k) Q M := by
  rw [wp_bind]
  unfold clientFree
  refine wp_useb h (by owca) ?_
  refine wp_freeRequest h hw fun M h => ?_
  refine wp_freeb h (by owca) fun M h => ?_
  refine wp_free h (fun b hb => ?_) fun M h => ?_
  · simp only [sub_ap, add_ap, clO_ap] at hb ⊢
    rw [hb, cnt_toList_some, one_self]
    omega
  refine wp_freeb h (by simp only [sub_ap, add_ap, clO_ap, one_self]; omega) fun M h => ?_
  refine wp_eachLose (F := F + one c.self) c.resp (h.re ?_) fun M h => ?_
  · owc
  apply wp_tail
  refine wp_freeb h (by owna) fun M h => ?_
  exact hk M (h.re (by own))

theorem wp_delayedWrite {F : Own} {β : Type} {Q : β → Mem → Prop} {k : List Resp → Prog β} :
    ∀ (q : List Resp) (M : Mem), Holds l (F + rs q) M → (∀ q' M, Holds l (F + rs q') M → wp l (k q') Q M) →
      wp l (delayedWrite q >>= k) Q M := by
  intro q
  induction q with
  | nil => intro M h hk; exact hk [] M h
  | cons r q ih =>
    intro M h hk
    rw [wp_bind]
    unfold delayedWrite
    refine wp_useb h (by owca) ?_
    refine wp_useb h (by owca) ?_
    as a
    br
    · exact hk _ M h
    refine wp_freeb h (by owca) fun M h => ?_
    refine wp_freeb h (by simp only [sub_ap, add_ap, rs_cons, one_self]; omega) fun M h => ?_
    have := wp_bind.1 (ih M (h.re (by owc)) hk)
    exact this

theorem takeClient_some {fd : Nat} : ∀ {ls : List Client} {c : Client} {rest : List Client},
    takeClient fd ls = some (c, rest) → (∀ d, d ∈ ls ↔ d = c ∨ d ∈ rest) ∧ ∀ x, clsO ls x = clO c x + clsO rest x := by
  intro ls
  induction ls with
  | nil => intro c rest h; simp [takeClient] at h
  | cons a ls ih =>
    intro c rest h
    unfold takeClient at h
    split at h
    · cases h
      exact ⟨by simp, fun x => by rw [clsO_cons]⟩
    · split at h
      · cases h
      · rename_i d l' hd
        cases h
        obtain ⟨h1, h2⟩ := ih hd
        refine ⟨fun e => ?_, fun x => ?_⟩
        · rw [List.mem_cons, h1, List.mem_cons]
          exact ⟨fun h => h.elim (fun h => .inr (.inl h)) (fun h => h.elim .inl (fun h => .inr (.inr h))),
            fun h => h.elim (fun h => .inr (.inl h)) (fun h => h.elim .inl (fun h => .inr (.inr h)))⟩
        · rw [clsO_cons, clsO_cons, h2]
          omega

/-- Between two events. -/
def Calm (l : Level) (s : Srv) (M : Mem) : Prop := Holds l (srvO s) M ∧ SrvOk s

theorem Calm.take {fd : Nat} {ls : List Client} (hx : Calm l s M) (e : takeClient fd s.clients = some (c, ls)) :
    Turn l { s with clients := ls } c M := by
  obtain ⟨h1, h2⟩ := takeClient_some e
  refine ⟨⟨hx.1.re fun x => ?_, ⟨hx.2.mode, fun d hd => hx.2.ns d ((h1 d).2 (.inr hd)), fun d hd => hx.2.cl d ((h1 d).2 (.inr hd))⟩,
    hx.2.ns c ((h1 c).2 (.inl rfl))⟩, hx.2.cl c ((h1 c).2 (.inl rfl))⟩
  have := h2 x
  simp only [add_ap, srvO_ap, glO_ap]
  omega

theorem Turn.put (hx : Turn l s c M) : Calm l { s with clients := c :: s.clients } M := by
  refine ⟨hx.holds.re fun x => ?_, ⟨hx.ok.mode, ?_, ?_⟩⟩
  · simp only [add_ap, srvO_ap, glO_ap, clsO_cons]
    omega
  · intro d hd
    rcases List.mem_cons.1 hd with rfl | hd
    · exact hx.ns
    · exact hx.ok.ns d hd
  · intro d hd
    rcases List.mem_cons.1 hd with rfl | hd
    · exact hx.inv
    · exact hx.ok.cl d hd

theorem wp_clientNew {fd : Nat} (hx : Calm l s M) : wp l (clientNew s fd) (Calm l) M := by
  obtain ⟨h, hk⟩ := hx
  have go : ∀ nl M, Holds l (srvO { s with clist := nl }) M → wp l (do
      let self ← malloc
      useb self
      let buf ← malloc
      let req ← malloc
      useb req
      useb nl
      useb s.nslist
      let ns := s.spaces.head?.map (·.self)
      pure { s with clist := nl, clients := s.clients ++
               [{ fd := fd, self := self, buf := buf, req := req, nonce := none, phase := .empty, argc := 0, argv := none,
                  args := [], resp := [], ns := ns, master := false, mirror := false, watching := false }] })
      (Calm l) M := by
    intro nl M h
    al a
    us
    al b
    al r
    us
    refine wp_useb h (by owca) ?_
    refine wp_useb h (by owca) ?_
    refine ⟨h.re ?_, ⟨hk.mode, ?_, ?_⟩⟩
    · owc
    · intro d hd
      rcases List.mem_append.1 hd with hd | hd
      · exact hk.ns d hd
      · rw [List.mem_singleton.1 hd]
        intro p hp
        simp only [Option.map_eq_some_iff] at hp
        obtain ⟨sp, hsp, rfl⟩ := hp
        exact List.mem_map.2 ⟨sp, List.mem_of_head? hsp, rfl⟩
    · intro d hd
      rcases List.mem_append.1 hd with hd | hd
      · exact hk.cl d hd
      · rw [List.mem_singleton.1 hd]
        exact ⟨rfl, rfl⟩
  unfold clientNew
  as a
  br
  · exact go s.clist M h
  · refine wp_realloc h (by owca) fun nl M h => go nl M (h.re ?_)
    owc

theorem wp_timeouts {P : Client → Prop} (hP : ∀ c q w, P c → P { c with resp := q, watching := w }) :
    ∀ (ds : List Client) (F : Own) (M : Mem), Holds l (F + clsO ds) M → (∀ d ∈ ds, P d) →
      wp l (timeouts ds) (fun r M => Holds l (F + clsO r) M ∧ ∀ d ∈ r, P d) M := by
  intro ds
  induction ds with
  | nil => intro F M h h1; exact ⟨h, h1⟩
  | cons d ds ih =>
    intro F M h h1
    have step : ∀ d' M, P d' → Holds l (F + clO d' + clsO ds) M → wp l (do
        let l ← timeouts ds
        pure (d' :: l)) (fun r M => Holds l (F + clsO r) M ∧ ∀ d ∈ r, P d) M := by
      intro d' M hi h
      refine wp_call (ih (F + clO d') M h (fun x hx => h1 x (by simp [hx]))) ?_
      rintro r M ⟨h, h1'⟩
      refine ⟨h.re ?_, ?_⟩
      · intro x
        simp only [add_ap, clsO_cons]
        omega
      · intro x hx
        rcases List.mem_cons.1 hx with rfl | hx
        · exact hi
        · exact h1' x hx
    have aq : Av (F + clsO (d :: ds)) (respBlocks d.resp) := av_resp fun x => by simp only [add_ap, clsO_cons]; omega
    have hd := h1 d (by simp)
    unfold timeouts
    refine wp_useb h (by owca) ?_
    as a
    br
    · refine wp_call (wp_replyStack h aq) fun q' M h => ?_
      obtain ⟨e, rfl, h⟩ := h
      refine step { d with resp := d.resp ++ e, watching := false } M (hP _ _ _ hd) (h.re fun x => ?_)
      simp only [add_ap, clsO_cons, clO_ap, rs_append]
      omega
    · refine step d M hd (h.re fun x => ?_)
      simp only [add_ap, clsO_cons]
      omega

theorem wp_rotate : ∀ (ls : List Space) (F : Own) (M : Mem), Holds l (F + spsO ls) M → (∀ sp ∈ ls, ModeOk sp) →
    wp l (rotate ls) (fun r M => Holds l (F + spsO r) M ∧ spaceIds r = spaceIds ls ∧ ∀ sp ∈ r, ModeOk sp) M := by
  intro ls
  induction ls with
  | nil => intro F M h h1; exact ⟨h, rfl, h1⟩
  | cons sp ls ih =>
    intro F M h h1
    have step : ∀ sp' M, sp'.self = sp.self → ModeOk sp' → Holds l (F + spO sp' + spsO ls) M → wp l (do
        let l ← rotate ls
        pure (sp' :: l)) (fun r M => Holds l (F + spsO r) M ∧ spaceIds r = spaceIds (sp :: ls) ∧ ∀ sp ∈ r, ModeOk sp) M := by
      intro sp' M e hm h
      refine wp_call (ih (F + spO sp') M h (fun x hx => h1 x (by simp [hx]))) ?_
      rintro r M ⟨h, h2, h1'⟩
      refine ⟨h.re ?_, ?_, ?_⟩
      · ows
      · simp only [spaceIds, List.map_cons] at h2 ⊢
        rw [h2, e]
      · intro x hx
        rcases List.mem_cons.1 hx with rfl | hx
        · exact hm
        · exact h1' x hx
    have hm := h1 sp (by simp)
    unfold rotate
    refine wp_useb h (by owsa) ?_
    as a
    br
    · exact step sp M rfl hm (h.re (by ows))
    · refine wp_jump (F := F + spsO ls) (h.re (by ows)) hm fun sp' M ⟨h, e, hm'⟩ => step sp' M e hm' (h.re ?_)
      own

theorem wp_ev (hl : l ≠ .any) (hx : Calm l s M) (e : Ev) : wp l (e.prog s) (Calm l) M := by
  cases e with
  | connect fd => exact wp_clientNew hx
  | error fd =>
    simp only [Ev.prog]
    cases e : takeClient fd s.clients with
    | none => exact hx
    | some r =>
      obtain ⟨c, ls⟩ := r
      simp only
      have ht := hx.take e
      exact wp_clientFree ht.holds ht.inv.weak fun M h => ⟨h, ht.ok⟩
  | input fd =>
    simp only [Ev.prog]
    cases e : takeClient fd s.clients with
    | none => exact hx
    | some r =>
      obtain ⟨c, ls⟩ := r
      simp only
      have ht := hx.take e
      as n
      refine wp_call (wp_chunk hl n _ _ M ht) ?_
      rintro ⟨s, c, gone⟩ M ⟨hx, hw, hI⟩
      cases gone with
      | true => exact wp_clientFree hx.holds hw fun M h => ⟨h, hx.ok⟩
      | false => exact Turn.put ⟨hx, hI rfl⟩
  | output fd =>
    simp only [Ev.prog]
    cases e : takeClient fd s.clients with
    | none => exact hx
    | some r =>
      obtain ⟨c, ls⟩ := r
      simp only
      have ht := hx.take e
      have h := ht.holds
      refine wp_useb h (by owca) ?_
      refine wp_delayedWrite (F := srvO { s with clients := ls } + (clO c - rs c.resp)) c.resp M (h.re ?_) fun q' M h => ?_
      · owc
      refine Turn.put (s := { s with clients := ls }) (c := { c with resp := q' }) ⟨⟨h.re ?_, ht.ok, ht.ns⟩, ht.inv⟩
      owc
  | idle =>
    unfold Ev.prog
    refine wp_call (wp_timeouts (P := fun c => NsOk s.spaces c ∧ CInv c) (fun c q w h => h) s.clients (glO s + spsO s.spaces) M
      (hx.1.re fun x => ?_) fun d hd => ⟨hx.2.ns d hd, hx.2.cl d hd⟩) ?_
    · simp only [add_ap, srvO_ap]
      omega
    rintro cl M ⟨h, hcl⟩
    refine wp_call (wp_rotate s.spaces (glO s + clsO cl) M (h.re (by own)) hx.2.mode) ?_
    rintro ls M ⟨h, e, hm⟩
    refine ⟨h.re fun x => ?_, ⟨hm, fun d hd p hp => ?_, fun d hd => (hcl d hd).2⟩⟩
    · simp only [add_ap, srvO_ap, glO_ap]
    · have := (hcl d hd).1 p hp
      simp only [e]
      exact this

theorem wp_runEvs (hl : l ≠ .any) : ∀ (es : List Ev) (s : Srv) (M : Mem), Calm l s M → wp l (runEvs es s) (Calm l) M := by
  intro es
  induction es with
  | nil => intro s M h; exact h
  | cons e es ih =>
    intro s M h
    unfold runEvs
    exact wp_call (wp_ev hl h e) fun s M h => ih s M h

theorem wp_scanload {F : Own} {β : Type} {Q : β → Mem → Prop} {k : Nat × List Space → Prog β}
    (hk : ∀ nl ls M, Holds l (F + one nl + spsO ls) M → (∀ sp ∈ ls, ModeOk sp) → wp l (k (nl, ls)) Q M) :
    ∀ n nl (ls : List Space) (M : Mem), Holds l (F + one nl + spsO ls) M → (∀ sp ∈ ls, ModeOk sp) →
      wp l (scanload n nl ls >>= k) Q M := by
  intro n
  induction n with
  | zero => intro nl ls M h hm; exact hk nl ls M h hm
  | succ n ih =>
    intro nl ls M h hm
    rw [wp_bind]
    unfold scanload
    refine wp_namespaceLoad h (fun M h => ?_) fun sp M hsp h => ?_
    · have := wp_bind.1 (ih nl ls M h hm)
      exact this
    · refine wp_realloc h (by owna) fun nl' M h => ?_
      have := wp_bind.1 (ih nl' (ls ++ [sp]) M (h.re (by ows)) ?_)
      · exact this
      · intro x hx
        rcases List.mem_append.1 hx with hx | hx
        · exact hm x hx
        · rw [List.mem_singleton.1 hx]; exact hsp

theorem holds_blank : Holds l (cnt []) blank := by
  intro b
  simp [cnt, blank]

theorem wp_start : wp l start (Calm l) blank := by
  have h := holds_blank (l := l)
  unfold start
  al a
  al b
  as k
  have go : ∀ br M, Holds l (cnt br.toList + (one b + (one a + cnt []))) M → wp l (do
      let trans ← malloc
      let reuse ← malloc
      let sp ← namespaceLoad
      match sp with
      | none => .die
      | some sp => do
        let n ← ask
        let (nl, l) ← scanload n b [sp]
        let clist ← malloc
        pure { clist := clist, nsroot := a, nslist := nl, branches := br, trans := trans, reuse := reuse,
               clients := [], spaces := l }) (Calm l) M := by
    intro br M h
    al t
    al r
    refine wp_namespaceLoad h (fun M h => wp_die) fun sp M hm h => ?_
    as n
    refine wp_scanload (F := one r + (one t + (cnt br.toList + one a))) (fun nl ls M h hm => ?_) n b [sp] M (h.re ?_) ?_
    · al cl
      refine ⟨h.re fun x => ?_, ⟨hm, by simp, by simp⟩⟩
      simp only [add_ap, srvO_ap, glO_ap, clsO_nil]
      omega
    · ows
    · intro x hx
      rw [List.mem_singleton.1 hx]
      exact hm
  br
  · exact go none _ (h.re (by own))
  · al c
    exact go (some c) _ (h.re (by own))

/-- What is freed first at the end. -/
def coresO : List Space → Own
  | [] => cnt []
  | sp :: l => coreO sp + coresO l

/-- What is freed last. -/
def headsO : List Space → Own
  | [] => cnt []
  | sp :: l => headO sp + headsO l

theorem spsO_split : ∀ (ls : List Space) (x : Nat), spsO ls x = coresO ls x + headsO ls x := by
  intro ls
  induction ls with
  | nil => intro x; rfl
  | cons sp ls ih =>
    intro x
    have := ih x
    simp only [spsO_cons, spO_ap, coresO, headsO, add_ap]
    omega

theorem wp_stop (hx : Calm l s M) : wp l (stop s) (fun _ M => Holds l (cnt []) M) M := by
  unfold stop
  refine wp_each (fun ds M => Holds l (glO s + spsO s.spaces + clsO ds) M ∧ ∀ d ∈ ds, CInv d) ?_ ?_ s.clients M
    ⟨hx.1.re fun x => by simp only [add_ap, srvO_ap]; omega, hx.2.cl⟩
  · rintro d ds M ⟨h, hd⟩
    apply wp_tail
    refine wp_clientFree (F := glO s + spsO s.spaces + clsO ds) (h.re ?_) (hd d (by simp)).weak fun M h => ⟨h, fun x hx => hd x (by simp [hx])⟩
    intro x
    simp only [add_ap, clsO_cons]
    omega
  rintro M ⟨h, -⟩
  refine wp_freeb h (by owca) fun M h => ?_
  refine wp_free h (fun b hb => ?_) fun M h => ?_
  · simp only [sub_ap, add_ap, glO_ap]
    rw [hb, cnt_toList_some, one_self]
    omega
  have h : Holds l (one s.nsroot + one s.nslist + one s.trans + one s.reuse + headsO s.spaces + coresO s.spaces) M := by
    refine h.re fun x => ?_
    simp only [sub_ap, add_ap, glO_ap, clsO_nil, spsO_split]
    omega
  refine wp_each (fun sps M => Holds l (one s.nsroot + one s.nslist + one s.trans + one s.reuse + headsO s.spaces + coresO sps) M)
    ?_ ?_ s.spaces M h
  · intro sp sps M h
    apply wp_tail
    refine wp_destroy (h.re ?_) fun M h => h
    intro x
    simp only [add_ap, coresO]
    omega
  clear h
  intro M h
  have h : Holds l (one s.nsroot + one s.nslist + one s.trans + one s.reuse + headsO s.spaces) M := h.re fun x => by
    simp only [add_ap, coresO, cnt_nil]
    omega
  refine wp_each (fun sps M => Holds l (one s.nsroot + one s.nslist + one s.trans + one s.reuse + headsO sps) M)
    ?_ ?_ s.spaces M h
  · intro sp sps M h
    apply wp_tail
    refine wp_namespaceFree (h.re ?_) fun M h => h
    intro x
    simp only [add_ap, headsO]
    omega
  clear h
  intro M h
  have h : Holds l (one s.nsroot + one s.nslist + one s.trans + one s.reuse) M := h.re fun x => by
    simp only [add_ap, headsO, cnt_nil]
    omega
  refine wp_freeb h (by owna) fun M h => ?_
  refine wp_freeb h (by owna) fun M h => ?_
  refine wp_freeb h (by owna) fun M h => ?_
  apply wp_tail
  refine wp_freeb h (by owna) fun M h => ?_
  exact h.re (by own)

end

end Zdb.Heap
