import Verif.Lemmas.SchemaLayout
import Verif.Lemmas.SchemaPath
import Verif.Spec.Compare
namespace Conduit
open Spec Spec.Tree RSchema

namespace Schema

theorem allM_ok {α : Type} {f : α → Res Bool} {g : α → Bool} : ∀ {l : List α}, (∀ x ∈ l, f x = .ok (g x)) →
    allM f l = .ok (l.all g)
  | [], _ => rfl
  | x :: xs, h => by
    rw [allM, h x (by simp)]
    cases hg : g x with
    | false => simp [hg]
    | true => simp only [List.all_cons, hg, Bool.true_and]; exact allM_ok (fun y hy => h y (by simp [hy]))

theorem cullSlash_noslash {n : Str} (h : '/' ∉ n) : RSchema.cullSlash n = n := by
  cases n with
  | nil => rfl
  | cons x n => simp only [List.mem_cons, not_or] at h; rw [RSchema.cullSlash, if_neg (fun e => h.1 e.symm)]

theorem hasPath_noslash (es : List (Str × Schema)) {n : Str} (h : '/' ∉ n) :
    hasPath (.obj es) n = (es.lookup n).isSome := by
  rw [hasPath, cullSlash_noslash h, show splitPath n = (n, []) from splitString_not_mem h]
  cases hl : es.lookup n <;> simp [hl]

theorem dt_equals_iff (d e : DataType) : d.equals e = true ↔ d = e := by
  cases d; cases e; simp [DataType.equals]; grind

theorem lookup_of_mem {es : List (Str × Tree)} (hd : (es.map (·.1)).Nodup) {e : Str × Tree} (h : e ∈ es) :
    es.lookup e.1 = some e.2 := by
  induction es with
  | nil => simp at h
  | cons x es ih =>
    obtain ⟨k, v⟩ := x
    simp only [List.map_cons, List.nodup_cons] at hd
    rcases List.mem_cons.1 h with rfl | h
    · simp
    · have : (e.1 == k) = false := by
        simp only [beq_eq_false_iff_ne]; intro hk; exact hd.1 (hk ▸ List.mem_map_of_mem (f := (·.1)) h)
      rw [List.lookup_cons, this]
      exact ih hd.2 h

theorem mem_of_lookup {es : List (Str × Tree)} {n : Str} {c : Tree} (h : es.lookup n = some c) : (n, c) ∈ es := by
  induction es with
  | nil => simp at h
  | cons x es ih =>
    obtain ⟨k, v⟩ := x
    rw [List.lookup_cons] at h
    by_cases hk : (n == k) = true
    · simp only [hk] at h; injection h with h; subst h; simp at hk; subst hk; simp
    · have hk : (n == k) = false := by simpa using hk
      simp only [hk] at h
      simp [ih h]

theorem lookup_isSome_iff_mem {es : List (Str × Tree)} {n : Str} : (es.lookup n).isSome ↔ n ∈ es.map (·.1) := by
  rw [List.lookup_isSome_iff]
  simp only [List.mem_map, beq_iff_eq]
  constructor
  · rintro ⟨e, he, hh⟩; exact ⟨e, he, hh.symm⟩
  · rintro ⟨e, he, hh⟩; exact ⟨e, he, hh.symm⟩

theorem Same.symm {a b : Tree} (h : Same a b) : Same b a := by
  induction h with
  | leaf d => exact .leaf d
  | lst as bs hl _ ih => exact .lst bs as hl.symm (fun i b a hb ha => ih i a b ha hb)
  | obj as bs hk _ ih => exact .obj bs as (fun n => (hk n).symm) (fun n b a hb ha => ih n a b ha hb)

theorem Same.refl : ∀ a : Tree, Same a a := by
  apply Tree.ind
  · exact fun d => .leaf d
  · intro es ih
    refine .obj es es (fun _ => Iff.rfl) (fun n a b ha hb => ?_)
    rw [ha] at hb; injection hb with hb; subst hb
    exact ih (n, a) (mem_of_lookup ha)
  · intro cs ih
    refine .lst cs cs rfl (fun i a b ha hb => ?_)
    rw [ha] at hb; injection hb with hb; subst hb
    exact ih a (List.mem_of_getElem? ha)

theorem Same.trans {a b c : Tree} (h : Same a b) : Same b c → Same a c := by
  induction h generalizing c with
  | leaf d => exact id
  | lst as bs hl _ ih =>
    intro h2; cases h2 with
    | lst _ cs hl2 h2 =>
      refine .lst as cs (hl.trans hl2) (fun i a c ha hc => ?_)
      have hi : i < bs.length := by
        have := (List.getElem?_eq_some_iff.1 ha).1; omega
      exact ih i a bs[i] ha (by simp [hi]) (h2 i _ _ (by simp [hi]) hc)
  | obj as bs hk _ ih =>
    intro h2; cases h2 with
    | obj _ cs hk2 h2 =>
      refine .obj as cs (fun n => (hk n).trans (hk2 n)) (fun n a c ha hc => ?_)
      have : (bs.lookup n).isSome := by
        rw [lookup_isSome_iff_mem, ← hk, ← lookup_isSome_iff_mem, ha]; rfl
      obtain ⟨b, hb⟩ := Option.isSome_iff_exists.1 this
      exact ih n a b ha hb (h2 n b c hb hc)

/-- distinct names without slashes, at every level -/
def Nice (t : Tree) : Prop := Distinct t ∧ NoSlash t

theorem Nice.objmem {es : List (Str × Tree)} (h : Nice (.obj es)) {e} (he : e ∈ es) : Nice e.2 := by
  obtain ⟨h1, h2⟩ := h
  cases h1 with | obj _ _ h1 => cases h2 with | obj _ _ h2 => exact ⟨h1 e he, h2 e he⟩

theorem Nice.lstmem {cs : List Tree} (h : Nice (.lst cs)) {e} (he : e ∈ cs) : Nice e := by
  obtain ⟨h1, h2⟩ := h
  cases h1 with | lst _ h1 => cases h2 with | lst _ h2 => exact ⟨h1 e he, h2 e he⟩

theorem Nice.nodup {es : List (Str × Tree)} (h : Nice (.obj es)) : (es.map (·.1)).Nodup := by
  obtain ⟨h1, _⟩ := h; cases h1; assumption

theorem Nice.slash {es : List (Str × Tree)} (h : Nice (.obj es)) {e} (he : e ∈ es) : '/' ∉ e.1 := by
  obtain ⟨_, h1⟩ := h; cases h1 with | obj _ h _ => exact h e he

open Classical in
/-- one of the two loops of `equals` over objects -/
theorem equals_loop {ea eb : List (Str × Schema)} (hb : Nice (.obj eb))
    (ih : ∀ e ∈ eb, ∀ c, ea.lookup e.1 = some c → ∃ r, equals e.2 c = .ok r ∧ (r = true ↔ Same e.2 c)) :
    ∃ r, allM (fun (e : { e // e ∈ eb }) =>
        if hasPath (.obj ea) e.1.1 then
          match h : ea.lookup e.1.1 with
          | none => .error
          | some c => equals e.1.2 c
        else .ok false) eb.attach = .ok r ∧
      (r = true ↔ (∀ n, n ∈ eb.map (·.1) → n ∈ ea.map (·.1)) ∧
        ∀ n a b, ea.lookup n = some a → eb.lookup n = some b → Same b a) := by
  refine ⟨_, allM_ok (g := fun e => decide (∃ c, ea.lookup e.1.1 = some c ∧ Same e.1.2 c)) ?_, ?_⟩
  · rintro ⟨e, he⟩ _
    simp only [hasPath_noslash ea (hb.slash he)]
    cases hl : ea.lookup e.1 with
    | none => simp
    | some c =>
      obtain ⟨r, hr, hs⟩ := ih e he c hl
      simp only [Option.isSome_some, if_true]
      rw [hr]
      congr 1
      cases r <;> simp_all
  · rw [List.all_eq_true]
    constructor
    · intro h
      refine ⟨?_, ?_⟩
      · intro n hn
        obtain ⟨e, he, rfl⟩ := List.mem_map.1 hn
        have := h ⟨e, he⟩ (List.mem_attach _ _)
        simp only [decide_eq_true_eq] at this
        obtain ⟨c, hc, _⟩ := this
        rw [← lookup_isSome_iff_mem, hc]; rfl
      · intro n a b ha hb'
        have := h ⟨(n, b), mem_of_lookup hb'⟩ (List.mem_attach _ _)
        simp only [decide_eq_true_eq] at this
        obtain ⟨c, hc, hs⟩ := this
        rw [ha] at hc; injection hc with hc; subst hc; exact hs
    · rintro ⟨h1, h2⟩ ⟨e, he⟩ _
      simp only [decide_eq_true_eq]
      have := h1 e.1 (List.mem_map_of_mem he)
      rw [← lookup_isSome_iff_mem] at this
      obtain ⟨c, hc⟩ := Option.isSome_iff_exists.1 this
      exact ⟨c, hc, h2 e.1 c e.2 hc (lookup_of_mem hb.nodup he)⟩

theorem mem_pairIdx {la lb i : Nat} (x : { i : Nat // i < la ∧ i < lb }) (hx : x.1 = i) :
    x ∈ ((List.range lb).filterMap fun i =>
        if h : i < la ∧ i < lb then some (⟨i, h⟩ : { i : Nat // i < la ∧ i < lb }) else none) := by
  simp only [List.mem_filterMap, List.mem_range]
  exact ⟨x.1, x.2.2, by simp [x.2]⟩

open Classical in
theorem equals_iff (n : Nat) : ∀ a b : Schema, sizeOf a + sizeOf b ≤ n → Nice a → Nice b →
    ∃ r, equals a b = .ok r ∧ (r = true ↔ Same a b) := by
  induction n using Nat.strongRecOn with
  | ind n ih =>
    intro a b hn ha hb
    rw [equals.eq_def]
    cases a with
    | leaf d =>
      cases b with
      | leaf e =>
        refine ⟨_, rfl, ?_⟩
        rw [dt_equals_iff]
        constructor
        · rintro rfl; exact .leaf d
        · intro h; cases h; rfl
      | obj e => exact ⟨_, rfl, by simp; intro h; cases h⟩
      | lst e => exact ⟨_, rfl, by simp; intro h; cases h⟩
    | lst ca =>
      cases b with
      | leaf e => exact ⟨_, rfl, by simp; intro h; cases h⟩
      | obj e => exact ⟨_, rfl, by simp; intro h; cases h⟩
      | lst cb =>
        simp only
        by_cases hl : ca.length = cb.length
        · rw [if_neg (by simpa using hl)]
          refine ⟨_, allM_ok (g := fun (i : { i : Nat // i < ca.length ∧ i < cb.length }) =>
            decide (Same (ca[i.1]'i.2.1) (cb[i.1]'i.2.2))) ?_, ?_⟩
          · rintro ⟨i, h1, h2⟩ _
            have s1 := List.sizeOf_lt_of_mem (List.getElem_mem h1)
            have s2 := List.sizeOf_lt_of_mem (List.getElem_mem h2)
            simp at hn
            obtain ⟨r, hr, hs⟩ := ih (sizeOf ca[i] + sizeOf cb[i]) (by omega) ca[i] cb[i] (by omega)
              (ha.lstmem (List.getElem_mem h1)) (hb.lstmem (List.getElem_mem h2))
            rw [hr]; congr 1; cases r <;> simp_all
          · rw [List.all_eq_true]
            constructor
            · intro h
              refine .lst ca cb hl (fun i x y hx hy => ?_)
              obtain ⟨h1, rfl⟩ := List.getElem?_eq_some_iff.1 hx
              obtain ⟨h2, rfl⟩ := List.getElem?_eq_some_iff.1 hy
              have := h ⟨i, h1, h2⟩ (mem_pairIdx _ rfl)
              simpa using this
            · intro h
              cases h with
              | lst _ _ _ h =>
                rintro ⟨i, h1, h2⟩ _
                simp only [decide_eq_true_eq]
                exact h i _ _ (by simp [h1]) (by simp [h2])
        · rw [if_pos hl]
          exact ⟨_, rfl, by simp; intro h; cases h; contradiction⟩
    | obj ea =>
      cases b with
      | leaf e => exact ⟨_, rfl, by simp; intro h; cases h⟩
      | lst e => exact ⟨_, rfl, by simp; intro h; cases h⟩
      | obj eb =>
        simp only
        simp at hn
        obtain ⟨r1, h1, k1⟩ := equals_loop (ea := ea) hb (by
          intro e he c hc
          have s1 := sizeOf_mem he
          have s2 := sizeOf_lookup hc
          exact ih (sizeOf e.2 + sizeOf c) (by omega) _ _ (by omega) (hb.objmem he)
            (ha.objmem (mem_of_lookup hc)))
        obtain ⟨r2, h2, k2⟩ := equals_loop (ea := eb) ha (by
          intro e he c hc
          have s1 := sizeOf_mem he
          have s2 := sizeOf_lookup hc
          exact ih (sizeOf e.2 + sizeOf c) (by omega) _ _ (by omega) (ha.objmem he)
            (hb.objmem (mem_of_lookup hc)))
        erw [h1]
        cases r1 with
        | false =>
          refine ⟨_, rfl, ?_⟩
          simp only [Bool.false_eq_true, false_iff] at k1 ⊢
          intro h
          apply k1
          cases h with
          | obj _ _ hk h => exact ⟨fun n hn => (hk n).2 hn, fun n a b ha hb => Same.symm (h n a b ha hb)⟩
        | true =>
          simp only
          erw [h2]
          refine ⟨_, rfl, ?_⟩
          rw [k2]
          have k1 := k1.1 rfl
          constructor
          · rintro ⟨j1, j2⟩
            exact .obj ea eb (fun n => ⟨j1 n, k1.1 n⟩) (fun n a b ha hb => j2 n b a hb ha)
          · intro h
            cases h with
            | obj _ _ hk h => exact ⟨fun n hn => (hk n).1 hn, fun n b a hb ha => h n a b ha hb⟩

/-! ### compatible -/
theorem Fits.refl : ∀ a : Tree, Fits a a := by
  apply Tree.ind
  · exact fun d => .leaf d d rfl rfl (by omega)
  · intro es ih
    refine .obj es es (fun n a b ha hb => ?_)
    rw [ha] at hb; injection hb with hb; subst hb
    exact ih (n, a) (mem_of_lookup ha)
  · intro cs ih
    refine .lst cs cs (by omega) (fun i a b ha hb => ?_)
    rw [ha] at hb; injection hb with hb; subst hb
    exact ih a (List.mem_of_getElem? ha)

theorem Fits.trans {a b c : Tree} (h : Fits a b) : Fits b c → Covers b c → Fits a c := by
  induction h generalizing c with
  | leaf d e h1 h2 h3 =>
    intro h _; cases h with
    | leaf _ f g1 g2 g3 => exact .leaf d f (h1.trans g1) (h2.trans g2) (by omega)
  | lst as bs hl _ ih =>
    intro h2 h3; cases h2 with
    | lst _ cs hl2 h2 =>
      cases h3 with
      | lst _ _ h3 =>
        refine .lst as cs (by omega) (fun i a c ha hc => ?_)
        have hi : i < bs.length := by
          have := (List.getElem?_eq_some_iff.1 hc).1; omega
        exact ih i a bs[i] ha (by simp [hi]) (h2 i _ _ (by simp [hi]) hc) (h3 i _ _ (by simp [hi]) hc)
  | obj as bs _ ih =>
    intro h2 h3; cases h2 with
    | obj _ cs h2 =>
      cases h3 with
      | obj _ _ hk h3 =>
        refine .obj as cs (fun n a c ha hc => ?_)
        have : (bs.lookup n).isSome := by
          rw [lookup_isSome_iff_mem]; apply hk; rw [← lookup_isSome_iff_mem, hc]; rfl
        obtain ⟨b, hb⟩ := Option.isSome_iff_exists.1 this
        exact ih n a b ha hb (h2 n b c hb hc) (h3 n b c hb hc)

theorem dt_compatible_iff (d e : DataType) : (if d.id = e.id then d.compatible e else false) = true ↔
    (d.id = e.id ∧ d.ele = e.ele ∧ e.n ≤ d.n) := by
  simp [DataType.compatible]; grind

open Classical in
theorem compatible_iff (n : Nat) : ∀ a b : Schema, sizeOf a + sizeOf b ≤ n → Nice a → Nice b →
    ∃ r, compatible a b = .ok r ∧ (r = true ↔ Fits a b) := by
  induction n using Nat.strongRecOn with
  | ind n ih =>
    intro a b hn ha hb
    rw [compatible.eq_def]
    cases a with
    | leaf d =>
      cases b with
      | leaf e =>
        refine ⟨_, rfl, ?_⟩
        rw [dt_compatible_iff]
        constructor
        · rintro ⟨h1, h2, h3⟩; exact .leaf d e h1 h2 h3
        · intro h; cases h; exact ⟨by assumption, by assumption, by assumption⟩
      | obj e => exact ⟨_, rfl, by simp; intro h; cases h⟩
      | lst e => exact ⟨_, rfl, by simp; intro h; cases h⟩
    | lst ca =>
      cases b with
      | leaf e => exact ⟨_, rfl, by simp; intro h; cases h⟩
      | obj e => exact ⟨_, rfl, by simp; intro h; cases h⟩
      | lst cb =>
        simp only
        by_cases hl : ca.length < cb.length
        · rw [if_pos hl]
          exact ⟨_, rfl, by simp; intro h; cases h; omega⟩
        · rw [if_neg hl]
          refine ⟨_, allM_ok (g := fun (i : { i : Nat // i < ca.length ∧ i < cb.length }) =>
            decide (Fits (ca[i.1]'i.2.1) (cb[i.1]'i.2.2))) ?_, ?_⟩
          · rintro ⟨i, h1, h2⟩ _
            have s1 := List.sizeOf_lt_of_mem (List.getElem_mem h1)
            have s2 := List.sizeOf_lt_of_mem (List.getElem_mem h2)
            simp at hn
            obtain ⟨r, hr, hs⟩ := ih (sizeOf ca[i] + sizeOf cb[i]) (by omega) ca[i] cb[i] (by omega)
              (ha.lstmem (List.getElem_mem h1)) (hb.lstmem (List.getElem_mem h2))
            rw [hr]; congr 1; cases r <;> simp_all
          · rw [List.all_eq_true]
            constructor
            · intro h
              refine .lst ca cb (by omega) (fun i x y hx hy => ?_)
              obtain ⟨h1, rfl⟩ := List.getElem?_eq_some_iff.1 hx
              obtain ⟨h2, rfl⟩ := List.getElem?_eq_some_iff.1 hy
              have := h ⟨i, h1, h2⟩ (mem_pairIdx _ rfl)
              simpa using this
            · intro h
              cases h with
              | lst _ _ _ h =>
                rintro ⟨i, h1, h2⟩ _
                simp only [decide_eq_true_eq]
                exact h i _ _ (by simp [h1]) (by simp [h2])
    | obj ea =>
      cases b with
      | leaf e => exact ⟨_, rfl, by simp; intro h; cases h⟩
      | lst e => exact ⟨_, rfl, by simp; intro h; cases h⟩
      | obj eb =>
        simp only
        simp at hn
        refine ⟨_, allM_ok (g := fun e => decide (∀ c, ea.lookup e.1.1 = some c → Fits c e.1.2)) ?_, ?_⟩
        · rintro ⟨e, he⟩ _
          simp only [hasPath_noslash ea (hb.slash he)]
          cases hl : ea.lookup e.1 with
          | none => simp
          | some c =>
            have s1 := sizeOf_mem he
            have s2 := sizeOf_lookup hl
            obtain ⟨r, hr, hs⟩ := ih (sizeOf e.2 + sizeOf c) (by omega) c e.2 (by omega)
              (ha.objmem (mem_of_lookup hl)) (hb.objmem he)
            simp only [Option.isSome_some, if_true]
            rw [hr]
            congr 1
            cases r <;> simp_all
        · rw [List.all_eq_true]
          constructor
          · intro h
            refine .obj ea eb (fun n a b ha hb' => ?_)
            have := h ⟨(n, b), mem_of_lookup hb'⟩ (List.mem_attach _ _)
            simp only [decide_eq_true_eq] at this
            exact this a ha
          · intro h
            cases h with
            | obj _ _ h =>
              rintro ⟨e, he⟩ _
              simp only [decide_eq_true_eq]
              intro c hc
              exact h e.1 c e.2 hc (lookup_of_mem hb.nodup he)

/-! ### tie to the table form -/
open RSchema in
/-- `has_path` on the association lists is `has_path` on the tables. -/
theorem hasPath_refines (n : Nat) : ∀ (s : RSchema) (p : Str), p.length ≤ n → WF s →
    RSchema.hasPath s p = .ok (hasPath (abs s) p) := by
  induction n using Nat.strongRecOn with
  | ind n ih =>
    intro s p hp hw
    rw [RSchema.hasPath.eq_def, hasPath.eq_def]
    cases s with
    | leaf d => rfl
    | list c => rfl
    | object m o c =>
      simp only [abs]
      rw [lookup_zip hw, hw.1.find]
      cases hf : o.findIdx? (· == (splitPath (cullSlash p)).1) with
      | none => rfl
      | some i =>
        have hi : i < c.length := by
          have := (List.findIdx?_eq_some_iff_getElem.1 hf).1
          have := hw.1.1; omega
        simp only [Option.map_some, Option.bind_some, abss_eq, List.getElem?_map, List.getElem?_eq_getElem hi,
          Int.toNat_natCast]
        by_cases hn : (splitPath (cullSlash p)).2 = []
        · simp [hn]
        · simp only [hn, dite_false, show ¬ ((i : Int) < 0) by omega, if_false]
          have h1 := RSchema.split_next_lt hn
          have h2 : (cullSlash p).length ≤ p.length := by
            cases p with
            | nil => simp [cullSlash]
            | cons c r => rw [cullSlash]; split <;> simp
          exact ih _ (by omega) _ _ (Nat.le_refl _) ((WFs_iff c).1 hw.2 _ (List.getElem_mem hi))

theorem distinct_abs : ∀ t : RSchema, WF t → Distinct (abs t) := by
  intro t
  induction h : sizeOf t using Nat.strongRecOn generalizing t with
  | ind n ih =>
    intro hw
    cases t with
    | leaf d => exact .leaf d
    | list c =>
      rw [RSchema.abs, RSchema.abss_eq]
      refine .lst _ (fun x hx => ?_)
      obtain ⟨y, hy, rfl⟩ := List.mem_map.1 hx
      have := List.sizeOf_lt_of_mem hy
      exact ih (sizeOf y) (by subst h; simp; omega) y rfl ((WFs_iff c).1 hw y hy)
    | object m o c =>
      rw [RSchema.abs, RSchema.abss_eq]
      refine .obj _ ?_ (fun x hx => ?_)
      · rw [List.map_fst_zip (by simp [hw.1.1])]; exact hw.1.2.1
      · have := (List.of_mem_zip (a := x.1) (b := x.2) hx).2
        obtain ⟨y, hy, hxy⟩ := List.mem_map.1 this
        rw [← hxy]
        have := List.sizeOf_lt_of_mem hy
        exact ih (sizeOf y) (by subst h; simp; omega) y rfl ((WFs_iff c).1 hw.2 y hy)

end Schema
end Conduit
