import Verif.Lemmas.Csv3
import Verif.Lemmas.Csv
import Verif.Lemmas.NodeSync12
/-
Lemmas about the columns of a table that is read (C47).
-/
namespace Conduit
open Spec Node Heap CsvFile HT

theorem firsts_append (ps : List (List Str)) (a : Str) (p : List Str) : ∀ acc, firsts (ps ++ [a :: p]) acc = HT.withName (firsts ps acc) a := by
  induction ps with
  | nil =>
    intro acc
    rfl
  | cons q ps ih =>
    intro acc
    simp only [List.cons_append, firsts]
    exact ih _

/-- a leaf that is a column: it owns block `b` -/
def Column (d : DataType) (b : Nat) (D : HT) : Prop := ∃ n s, D = HT.mk n s ⟨some ⟨b, 0⟩, true⟩ (.leaf d) []

theorem Column.not_obj {d : DataType} {b : Nat} {D : HT} (h : Column d b D) : ¬ IsObj D := by
  obtain ⟨n, s, rfl⟩ := h
  rintro ⟨l, hk⟩
  cases hk
theorem Column.not_fresh {d : DataType} {b : Nat} {D : HT} (h : Column d b D) : ¬ Fresh D := by
  obtain ⟨n, s, rfl⟩ := h
  rintro ⟨n', s', hk⟩
  cases hk
theorem Column.find {d : DataType} {b : Nat} {D E : HT} (h : Column d b D) {q : List Str} (hf : HT.find q D = some E) : q = [] ∧ E = D := by
  obtain ⟨n, s, rfl⟩ := h
  cases q with
  | nil => injection hf with hf; exact ⟨rfl, hf.symm⟩
  | cons a q => cases hf

/-- the tree of the values while columns are added -/
structure Cols (d : DataType) (T : HT) (done : List (List Str)) (bs : List Nat) : Prop where
  len : bs.length = done.length
  col : ∀ (j : Nat) (p : List Str), done[j]? = some p → ∃ D b, bs[j]? = some b ∧ HT.find p T = some D ∧ Column d b D
  only : ∀ q D, HT.find q T = some D → IsObj D ∨ (∃ (j : Nat) (b : Nat), done[j]? = some q ∧ bs[j]? = some b ∧ Column d b D) ∨ (done = [] ∧ Fresh D ∧ q = [])
  under : ∀ q D, HT.find q T = some D → q ≠ [] → ∃ p ∈ done, q <+: p
  top : done ≠ [] → T.kind = .obj (firsts done [])
  none : done = [] → Fresh T

theorem Cols.start {d : DataType} {T : HT} (h : Fresh T) : Cols d T [] [] :=
  ⟨rfl, fun j p hj => by simp at hj, fun q D hf => by
    obtain ⟨rfl, rfl⟩ := find_fresh h hf
    exact .inr (.inr ⟨rfl, h, rfl⟩), fun q D hf hq => absurd (find_fresh h hf).1 hq, fun hc => absurd rfl hc, fun _ => h⟩

section
variable {h : Heap} {L : Prop} {pn ps : Option Nat} {own : Bool}

theorem addColumn_step {d : DataType} (hd : d.id = .float32 ∨ d.id = .float64) (hs : 0 ≤ d.spannedBytes)
    {T : HT} (g : Good h L pn ps own T) {done : List (List Str)} {bs : List Nat} (c : Cols d T done bs) {name : Str} (hp : Plain name)
    (hnew : ∀ p ∈ done, ¬ p <+: parts name ∧ ¬ parts name <+: p) :
    ∃ h' T', (do let r ← Csv.addColumn h T.nid name; r.1.initN r.2 d : Res Heap) = .ok h' ∧ Good h' L pn ps own T' ∧ HT.Step h T h' T' ∧
      h'.mem = h.mem ++ [some (List.replicate d.spannedBytes.toNat 0)] ∧ Cols d T' (done ++ [parts name]) (bs ++ [h.mem.length]) := by
  have hpne := parts_ne_nil name
  have ht : IsObj T ∨ Fresh T := by
    by_cases hdn : done = []
    · exact .inr (c.none hdn)
    · exact .inl ⟨_, c.top hdn⟩
  obtain ⟨h1, T1, C, e1, g1, s1, m1, f1, fr, M, k1⟩ := Csv.addColumn_make g ht hp (by
      intro q D hq hne hf
      rcases c.only q D hf with ho | ⟨j, b, hj, _, _⟩ | ⟨_, _, h3⟩
      · exact ho
      · exact absurd hq (hnew q (List.mem_of_getElem? hj)).1
      · exact absurd h3 hne)
    (by
      cases hf : HT.find (parts name) T with
      | none => rfl
      | some D =>
        obtain ⟨p, hp, hpre⟩ := c.under _ D hf hpne
        exact absurd hpre (hnew p hp).2)
  generalize hpe : parts name = p at *
  obtain ⟨pn', ps', own', gC, H⟩ := graft p T1 pn ps own C g1 f1
  obtain ⟨h2, C2, e2, g2, s2, m2, rfl⟩ := init_leaf gC fr hd hs
  obtain ⟨T2, gT, sT, kT, _, rT, pT⟩ := H h2 _ g2 s2
  have hcol : Column d h1.mem.length (HT.mk C.nid C.sid ⟨some ⟨h1.mem.length, 0⟩, true⟩ (.leaf d) []) := ⟨_, _, rfl⟩
  generalize hE : HT.mk C.nid C.sid ⟨some ⟨h1.mem.length, 0⟩, true⟩ (.leaf d) [] = E at *
  rw [m1] at hcol
  have hfE : HT.find p T2 = some E := by
    have := rT []
    rw [List.append_nil] at this
    exact this
  have hobj1 : IsObj T1 := ⟨_, k1⟩
  refine ⟨h2, T2, by rw [e1]; exact e2, gT, s1.trans sT, by rw [m2, m1], ⟨by simp [c.len], ?_, ?_, ?_, ?_, ?_⟩⟩
  · intro j q hj
    by_cases hlt : j < done.length
    · rw [List.getElem?_append_left hlt] at hj
      obtain ⟨D, b, hb, hf, hc⟩ := c.col j q hj
      refine ⟨D, b, ?_, ?_, hc⟩
      · rw [List.getElem?_append_left (by rw [c.len]; exact hlt)]; exact hb
      · have h1 := M.keep q D hf hc.not_obj hc.not_fresh
        rcases pT q (hnew q (List.mem_of_getElem? hj)).2 with e | ⟨_, ⟨D', e, ho⟩, _⟩
        · rw [e]; exact h1
        · rw [h1] at e
          injection e with e
          subst e
          exact absurd ho hc.not_obj
    · have hle : done.length ≤ j := by omega
      rw [List.getElem?_append_right hle] at hj
      have hj0 : j - done.length = 0 := by
        by_contra hx
        rw [List.getElem?_eq_none (by simp; omega)] at hj
        cases hj
      rw [hj0] at hj
      injection hj with hj
      subst hj
      refine ⟨E, h.mem.length, ?_, hfE, hcol⟩
      rw [List.getElem?_append_right (by rw [c.len]; exact hle), c.len, hj0]; rfl
  · intro q D hf
    by_cases hq : p <+: q
    · obtain ⟨r, rfl⟩ := hq
      rw [rT] at hf
      obtain ⟨rfl, rfl⟩ := hcol.find hf
      refine .inr (.inl ⟨done.length, h.mem.length, ?_, ?_, hcol⟩)
      · rw [List.getElem?_append_right (Nat.le_refl _)]; simp
      · rw [List.getElem?_append_right (by rw [c.len])]; simp [c.len]
    · have h1 : HT.find q T1 = some D ∨ IsObj D := by
        rcases pT q hq with e | ⟨⟨D', e, ho⟩, _, _⟩
        · left; rw [← e]; exact hf
        · rw [hf] at e
          injection e with e
          subst e
          exact .inr ho
      rcases h1 with h1 | h1
      · rcases M.back q D h1 with e | ⟨_, ho | ⟨e2, _⟩⟩
        · rcases c.only q D e with ho | ⟨j, b, hj, hb, hc⟩ | ⟨_, h2, h3⟩
          · exact .inl ho
          · refine .inr (.inl ⟨j, b, ?_, ?_, hc⟩)
            · rw [List.getElem?_append_left (List.getElem?_eq_some_iff.1 hj).1]; exact hj
            · rw [List.getElem?_append_left (List.getElem?_eq_some_iff.1 hb).1]; exact hb
          · subst h3
            injection h1 with h1
            subst h1
            exact .inl hobj1
        · exact .inl ho
        · exact absurd (by rw [e2]) hq
      · exact .inl h1
  · intro q D hf hne
    by_cases hq : p <+: q
    · obtain ⟨r, rfl⟩ := hq
      rw [rT] at hf
      obtain ⟨rfl, rfl⟩ := hcol.find hf
      exact ⟨p, by simp, by simp⟩
    · rcases pT q hq with e | ⟨_, _, e3⟩
      · rw [e] at hf
        rcases M.back q D hf with e | ⟨e2, _⟩
        · obtain ⟨p', hp', hpre⟩ := c.under q D e hne
          exact ⟨p', by simp [hp'], hpre⟩
        · exact ⟨p, by simp, e2⟩
      · exact ⟨p, by simp, e3⟩
  · intro _
    rw [kT hpne, k1]
    cases p with
    | nil => exact absurd rfl hpne
    | cons a p =>
      rw [firsts_append]
      simp only [List.head?_cons]
      congr 2
      by_cases hdn : done = []
      · obtain ⟨n, s, rfl⟩ := c.none hdn
        subst hdn
        rfl
      · unfold topNames
        rw [c.top hdn]
  · intro hc
    simp at hc

/-- what `Cols` needs of the memory: the blocks are different and zeroed -/
structure Zeroed (d : DataType) (m : Mem) (bs : List Nat) : Prop where
  nodup : bs.Nodup
  zero : ∀ b ∈ bs, m[b]? = some (some (List.replicate d.spannedBytes.toNat 0))

theorem Zeroed.snoc {d : DataType} {m : Mem} {bs : List Nat} (z : Zeroed d m bs) :
    Zeroed d (m ++ [some (List.replicate d.spannedBytes.toNat 0)]) (bs ++ [m.length]) := by
  have hlt : ∀ b ∈ bs, b < m.length := fun b hb => (List.getElem?_eq_some_iff.1 (z.zero b hb)).1
  constructor
  · rw [List.nodup_append]
    refine ⟨z.nodup, by simp, fun a ha b hb => ?_⟩
    simp at hb
    have := hlt a ha
    omega
  · intro b hb
    rw [List.mem_append, List.mem_singleton] at hb
    rcases hb with hb | rfl
    · rw [List.getElem?_append_left (hlt b hb)]; exact z.zero b hb
    · rw [List.getElem?_append_right (Nat.le_refl _)]; simp

theorem addColumns_make {d : DataType} (hd : d.id = .float32 ∨ d.id = .float64) (hs : 0 ≤ d.spannedBytes) {v : Nat} :
    ∀ (names : List Str) (h : Heap) (T : HT) (done : List (List Str)) (bs : List Nat), Good h L pn ps own T → T.nid = v → Cols d T done bs → Zeroed d h.mem bs →
      (∀ n ∈ names, Plain n) → (∀ n ∈ names, ∀ p ∈ done, ¬ p <+: parts n ∧ ¬ parts n <+: p) →
      names.Pairwise (fun a b => ¬ parts a <+: parts b ∧ ¬ parts b <+: parts a) →
      ∃ h' T' bs', names.foldlM (fun g name => do
          let r ← Csv.addColumn g v name
          r.1.initN r.2 d) h = .ok h' ∧ Good h' L pn ps own T' ∧ HT.Step h T h' T' ∧ Cols d T' (done ++ names.map parts) bs' ∧ Zeroed d h'.mem bs'
  | [], h, T, done, bs, g, hv, c, z, _, _, _ => ⟨h, T, bs, rfl, g, HT.Step.refl _ g.bounded, by simpa using c, z⟩
  | n :: names, h, T, done, bs, g, hv, c, z, hpl, hnew, hpw => by
    obtain ⟨h1, T1, e1, g1, s1, m1, c1⟩ := addColumn_step hd hs g c (hpl n (by simp)) (hnew n (by simp))
    rw [List.pairwise_cons] at hpw
    have z1 := z.snoc
    rw [← m1] at z1
    obtain ⟨h2, T2, bs2, e2, g2, s2, c2, z2⟩ := addColumns_make hd hs names h1 T1 _ _ g1 (s1.nid.trans hv) c1 z1 (fun x hx => hpl x (by simp [hx]))
      (fun x hx p hp => by
        rw [List.mem_append, List.mem_singleton] at hp
        rcases hp with hp | rfl
        · exact hnew x (by simp [hx]) p hp
        · exact ⟨(hpw.1 x hx).1, (hpw.1 x hx).2⟩) hpw.2
    refine ⟨h2, T2, bs2, ?_, g2, s1.trans s2, by simpa using c2, z2⟩
    rw [List.foldlM_cons, ← hv, e1]
    rw [hv]
    exact e2

end
end Conduit
