import Verif.Model.CommSchema
import Verif.Lemmas.Irecv
import Verif.Lemmas.Relay
namespace Conduit
namespace Relay
open Spec Spec.Tree Schema Node

/-! ### which message is received -/

def wanted (me : Nat) (tag : Int) (x : CommMsg) : Bool := x.dest == me && x.tag == tag

theorem takeFirst_some {p : CommMsg → Bool} : ∀ {l : List CommMsg} {x : CommMsg} {r : List CommMsg}, l.filter p = x :: r →
    ∃ l', takeFirst p l = some (x, l') ∧ l'.filter p = r ∧ ∀ q : CommMsg → Bool, (∀ y, p y = true → q y = false) → l'.filter q = l.filter q
  | [], _, _, h => by simp at h
  | y :: l, x, r, h => by
    by_cases hy : p y = true
    · rw [List.filter_cons_of_pos hy] at h
      injection h with h1 h2
      subst h1
      refine ⟨l, by simp [takeFirst, hy], h2, fun q hq => ?_⟩
      rw [List.filter_cons_of_neg (by rw [hq _ hy]; decide)]
    · rw [List.filter_cons_of_neg hy] at h
      obtain ⟨l', a1, a2, a3⟩ := takeFirst_some h
      refine ⟨y :: l', by simp [takeFirst, hy, a1], by rw [List.filter_cons_of_neg hy]; exact a2, fun q hq => ?_⟩
      rw [List.filter_cons, List.filter_cons, a3 q hq]

/-- the receives of a rank -/
def recvList : List CommOp → List (Node × Nat × Int)
  | [] => []
  | .send _ _ _ :: ops => recvList ops
  | .recv n s t :: ops => (n, s, t) :: recvList ops

/-- how many receives from the same rank with the same tag are before -/
def before (R : List (Node × Nat × Int)) (i : Nat) (k : Nat × Int) : Nat := (R.take i).countP fun r => decide (r.2 = k)

theorem commTag_ok {ub t : Int} (h0 : 0 ≤ t) (h1 : t ≤ ub) : commTag ub t = .ok t := by
  unfold commTag Mpi.invalidTag Mpi.safeTag
  rw [if_neg (by simp; omega)]
  simp only [if_true]
  rw [if_neg (by omega)]
  congr 1
  omega

theorem commRecvs_ok {ub : Int} {me : Nat} : ∀ (ops : List CommOp) (net : List (List CommMsg)),
    (∀ r ∈ recvList ops, 0 ≤ r.2.2 ∧ r.2.2 ≤ ub) →
    (∀ i n s t, (recvList ops)[i]? = some (n, s, t) → ∃ x, ((net.getD s []).filter (wanted me t))[before (recvList ops) i (s, t)]? = some x) →
    ∃ l, commRecvs ub me ops net = .ok l ∧ l.length = (recvList ops).length ∧
      ∀ i n s t, (recvList ops)[i]? = some (n, s, t) →
        ∃ x, ((net.getD s []).filter (wanted me t))[before (recvList ops) i (s, t)]? = some x ∧ l[i]? = some (n, x.bytes)
  | [], net, _, _ => ⟨[], rfl, rfl, by simp [recvList]⟩
  | .send _ _ _ :: ops, net, ht, h => by
    obtain ⟨l, a⟩ := commRecvs_ok ops net ht h
    exact ⟨l, a⟩
  | .recv n s t :: ops, net, ht, h => by
    have ht0 := ht (n, s, t) (by simp [recvList])
    obtain ⟨x, hx⟩ := h 0 n s t rfl
    have hb0 : before (recvList (.recv n s t :: ops)) 0 (s, t) = 0 := by simp [before]
    rw [hb0] at hx
    obtain ⟨r, hr⟩ : ∃ r, (net.getD s []).filter (wanted me t) = x :: r := by
      cases hf : (net.getD s []).filter (wanted me t) with
      | nil => rw [hf] at hx; simp at hx
      | cons y r => rw [hf] at hx; simp at hx; subst hx; exact ⟨r, rfl⟩
    obtain ⟨l', a1, a2, a3⟩ := takeFirst_some hr
    have hslen : s < net.length := by
      by_contra hc
      rw [List.getD_eq_getElem?_getD, List.getElem?_eq_none (by omega)] at hr
      simp at hr
    -- the queues after it
    have hq : ∀ s' t', ∀ c : Nat, (((net.set s l').getD s' []).filter (wanted me t'))[c]? =
        ((net.getD s' []).filter (wanted me t'))[c + (if (s, t) = (s', t') then 1 else 0)]? := by
      intro s' t' c
      by_cases hs : s' = s
      · subst hs
        have : (net.set s' l').getD s' [] = l' := by simp [List.getD_eq_getElem?_getD, List.getElem?_set_self hslen]
        rw [this]
        by_cases htt : t = t'
        · subst htt
          rw [if_pos rfl, hr, a2, List.getElem?_cons_succ]
        · rw [if_neg (by simp [htt]), a3 _ (fun y hy => by
            simp only [wanted, Bool.and_eq_true, beq_iff_eq] at hy
            simp [wanted, hy.2, htt])]
          rfl
      · rw [if_neg (by simp [Ne.symm hs])]
        have : (net.set s l').getD s' [] = net.getD s' [] := by simp [List.getD_eq_getElem?_getD, List.getElem?_set_ne (Ne.symm hs)]
        rw [this]
        rfl
    have hbef : ∀ i k, before (recvList (.recv n s t :: ops)) (i + 1) k = before (recvList ops) i k + (if (s, t) = k then 1 else 0) := by
      intro i k
      simp only [before, recvList, List.take_succ_cons, List.countP_cons, decide_eq_true_eq]
    obtain ⟨l, b1, b2, b3⟩ := commRecvs_ok ops (net.set s l') (fun r hr => ht r (by simp [recvList, hr])) (fun i n' s' t' hi => by
      rw [hq, ← hbef]
      exact h (i + 1) n' s' t' (by rw [recvList, List.getElem?_cons_succ]; exact hi))
    refine ⟨(n, x.bytes) :: l, ?_, by simp [recvList, b2], fun i n' s' t' hi => ?_⟩
    · rw [commRecvs, commTag_ok ht0.1 ht0.2, bind_ok]
      rw [show (fun x : CommMsg => x.dest == me && x.tag == t) = wanted me t from rfl, a1]
      simp only
      rw [b1, bind_ok]
    · cases i with
      | zero =>
        simp only [recvList, List.getElem?_cons_zero, Option.some.injEq, Prod.mk.injEq] at hi
        obtain ⟨rfl, rfl, rfl⟩ := hi
        exact ⟨x, by rw [hb0]; exact hx, rfl⟩
      | succ i =>
        rw [recvList, List.getElem?_cons_succ] at hi
        obtain ⟨y, c1, c2⟩ := b3 i n' s' t' hi
        rw [hq, ← hbef] at c1
        exact ⟨y, c1, by rw [List.getElem?_cons_succ]; exact c2⟩

/-! ### which messages are sent -/

/-- the nodes a rank sends to `q` with a tag, in order -/
def sendList (q : Nat) (tag : Int) : List CommOp → List Node
  | [] => []
  | .send n d t :: ops => if d = q ∧ t = tag then n :: sendList q tag ops else sendList q tag ops
  | .recv _ _ _ :: ops => sendList q tag ops

theorem commSends_ok {base : Nat → Int} {big : Bool} {ub : Int} {m : Mem} : ∀ (ops : List CommOp),
    (∀ n d t, CommOp.send n d t ∈ ops → (0 ≤ t ∧ t ≤ ub) ∧ ∃ msg, sendUsingSchema base big n m = .ok msg) →
    ∃ ms, commSends base big ub m ops = .ok ms ∧ ∀ q tag,
      List.Forall₂ (fun n (x : CommMsg) => sendUsingSchema base big n m = .ok x.bytes) (sendList q tag ops) (ms.filter (wanted q tag))
  | [], _ => ⟨[], rfl, fun _ _ => .nil⟩
  | .recv _ _ _ :: ops, h => by
    obtain ⟨ms, a1, a2⟩ := commSends_ok ops (fun n d t hm => h n d t (by simp [hm]))
    exact ⟨ms, a1, a2⟩
  | .send n d t :: ops, h => by
    obtain ⟨⟨h0, h1⟩, msg, hm⟩ := h n d t (by simp)
    obtain ⟨ms, a1, a2⟩ := commSends_ok ops (fun n d t hm => h n d t (by simp [hm]))
    refine ⟨⟨d, t, msg⟩ :: ms, ?_, fun q tag => ?_⟩
    · rw [commSends, commTag_ok h0 h1, bind_ok, hm, bind_ok, a1, bind_ok]
    · rw [sendList]
      split
      · rename_i hc
        rw [List.filter_cons_of_pos (by simp [wanted, hc])]
        exact .cons hm (a2 q tag)
      · rename_i hc
        rw [List.filter_cons_of_neg (by simpa [wanted] using hc)]
        exact a2 q tag

theorem commNet_ok {big : Bool} {ub : Int} : ∀ (ranks : List CommRank),
    (∀ r ∈ ranks, ∀ n d t, CommOp.send n d t ∈ r.ops → (0 ≤ t ∧ t ≤ ub) ∧ ∃ msg, sendUsingSchema r.base big n r.mem = .ok msg) →
    ∃ net, commNet big ub ranks = .ok net ∧ ∀ s r, ranks[s]? = some r → ∀ q tag,
      List.Forall₂ (fun n (x : CommMsg) => sendUsingSchema r.base big n r.mem = .ok x.bytes) (sendList q tag r.ops) ((net.getD s []).filter (wanted q tag))
  | [], _ => ⟨[], rfl, by simp⟩
  | r :: rs, h => by
    obtain ⟨ms, a1, a2⟩ := commSends_ok r.ops (h r (by simp))
    obtain ⟨net, b1, b2⟩ := commNet_ok rs (fun r hr => h r (by simp [hr]))
    refine ⟨ms :: net, by rw [commNet, a1, bind_ok, b1, bind_ok], fun s r' hs => ?_⟩
    cases s with
    | zero => simp at hs; subst hs; exact a2
    | succ s => rw [List.getElem?_cons_succ] at hs; rw [List.getD_cons_succ]; exact b2 s r' hs

/-! ### the nodes -/

/-- a message that carries a value -/
structure Carries (msg : List UInt8) (v : Val) : Prop where
  names : DistinctV v
  recv : ∀ (dest : Node) (m : Mem), Ready m dest → DistinctV (val m dest) → Fits v (val m dest) →
    ∃ m' n', recvUsingSchema msg dest m = .ok (m', n') ∧ val m' n' = merge v (val m dest) ∧ Ready m' n' ∧ Upd m m' dest n'

def bare (d : Node) : Item := ⟨⟨new, none, 0, 0, false⟩, d⟩

theorem upd_within {m m' : Mem} {d d' : Node} (h : Upd m m' d d') : Within m m' [bare d] :=
  ⟨h.len, fun b i hb hn => h.keep b i hb (fun hh => (hn (bare d) (by simp)).1 (.inl hh)) (fun pl hpl hh => (hn (bare d) (by simp)).1 (.inr ⟨pl, hpl, hh⟩)),
    fun b hb hn hl => h.live b hb (hn (bare d) (by simp)).1 hl⟩

theorem bare_clear {d n : Node} (h : ∀ b i, Foot d b i → ¬ Foot n b i) : Clear (bare d) n := ⟨h, fun b i hf => absurd hf (not_foot_new b i)⟩

theorem upd_foot {m m' : Mem} {d d' : Node} (h : Upd m m' d d') {b : Nat} {i : Int} (hb : b < m.length) (hf : Foot d' b i) : Foot d b i := by
  rcases hf with h' | ⟨pl, h1, h2⟩
  · obtain ⟨q, hq, rfl⟩ := List.mem_map.1 h'
    rcases h.own q hq with h | h
    · exact .inl (List.mem_map.2 ⟨q, h, rfl⟩)
    · omega
  · rcases h.plc pl h1 with h | h
    · exact .inr ⟨pl, h, h2⟩
    · have := h b i h2; omega

theorem commBuild_ok : ∀ (l : List (Node × List UInt8)) (m : Mem), (∀ x ∈ l, Ready m x.1 ∧ DistinctV (val m x.1)) →
    (l.map Prod.fst).Pairwise (fun a b => ∀ blk i, Foot a blk i → ¬ Foot b blk i) →
    (∀ x ∈ l, ∃ v, Carries x.2 v ∧ Fits v (val m x.1)) →
    ∃ m' ns, commBuild l m = .ok (m', ns) ∧ Within m m' (l.map fun x => bare x.1) ∧
      List.Forall₂ (fun (x : Node × List UInt8) n => Ready m' n ∧ ∀ v, Carries x.2 v → Fits v (val m x.1) → val m' n = merge v (val m x.1)) l ns
  | [], m, _, _, _ => ⟨m, [], rfl, Within.refl _ _, .nil⟩
  | (d, msg) :: l, m, hr, hp, hm => by
    rw [List.map_cons, List.pairwise_cons] at hp
    obtain ⟨v, c1, c2⟩ := hm (d, msg) (by simp)
    obtain ⟨hd1, hd2⟩ := hr (d, msg) (by simp)
    obtain ⟨m1, n1, a1, a2, a3, a4⟩ := c1.recv d m hd1 hd2 c2
    have hw := upd_within a4
    have hk : ∀ y ∈ l, Ready m1 y.1 ∧ val m1 y.1 = val m y.1 := by
      intro y hy
      refine keep_ready hw (fun z hz => ?_) (hr y (by simp [hy])).1
      rw [List.mem_singleton] at hz
      subst hz
      exact bare_clear (hp.1 y.1 (List.mem_map.2 ⟨y, hy, rfl⟩))
    obtain ⟨m2, ns, b1, b2, b3⟩ := commBuild_ok l m1 (fun y hy => ⟨(hk y hy).1, by rw [(hk y hy).2]; exact (hr y (by simp [hy])).2⟩) hp.2
      (fun y hy => by rw [(hk y hy).2]; exact hm y (by simp [hy]))
    have hclear : ∀ z ∈ l.map (fun x => bare x.1), Clear z n1 := by
      intro z hz
      obtain ⟨y, hy, rfl⟩ := List.mem_map.1 hz
      refine bare_clear (fun b i h1 h2 => ?_)
      exact hp.1 y.1 (List.mem_map.2 ⟨y, hy, rfl⟩) b i (upd_foot a4 (foot_lt (hr y (by simp [hy])).1 h1) h2) h1
    obtain ⟨k1, k2⟩ := keep_ready b2 hclear a3
    refine ⟨m2, n1 :: ns, by rw [commBuild, a1, bind_ok, b1, bind_ok], hw.trans b2 (by simp) (fun y hy => by rw [List.map_cons]; exact List.mem_cons_of_mem _ hy),
      .cons ⟨k1, fun v' e1 e2 => ?_⟩ ?_⟩
    · obtain ⟨m1', n1', a1', a2', _⟩ := e1.recv d m hd1 hd2 e2
      rw [a1] at a1'
      cases a1'
      rw [k2, a2']
    · exact forall₂_mem b3 (fun y hy n h => by rw [(hk y hy).2] at h; exact h)

/-- one rank -/
def Served (ub : Int) (net : List (List CommMsg)) (me : Nat) (r : CommRank) (u : Mem × List Node) : Prop :=
  ∃ l, commRecvs ub me r.ops net = .ok l ∧ commBuild l r.mem = .ok u

theorem commAll_ok {ub : Int} {net : List (List CommMsg)} : ∀ (ranks : List CommRank) (me : Nat),
    (∀ q r, ranks[q]? = some r → ∃ u, Served ub net (me + q) r u) →
    ∃ out, commAll ub net me ranks = .ok out ∧ out.length = ranks.length ∧
      ∀ q r u, ranks[q]? = some r → out[q]? = some u → Served ub net (me + q) r u
  | [], _, _ => ⟨[], rfl, rfl, by simp⟩
  | r :: rs, me, h => by
    obtain ⟨u, l, a1, a2⟩ := h 0 r rfl
    obtain ⟨out, b1, b2, b3⟩ := commAll_ok rs (me + 1) (fun q r' hq => by
      have := h (q + 1) r' (by rw [List.getElem?_cons_succ]; exact hq)
      rwa [show me + (q + 1) = me + 1 + q by omega] at this)
    refine ⟨u :: out, ?_, by simp [b2], fun q r' u' h1 h2 => ?_⟩
    · rw [commAll]
      rw [Nat.add_zero] at a1
      rw [a1, bind_ok, a2, bind_ok, b1, bind_ok]
    · cases q with
      | zero =>
        simp at h1 h2
        subst h1 h2
        exact ⟨l, a1, a2⟩
      | succ q =>
        rw [List.getElem?_cons_succ] at h1 h2
        have := b3 q r' u' h1 h2
        rwa [show me + 1 + q = me + (q + 1) by omega] at this

end Relay
end Conduit
