import Verif.Lemmas.Csv7
/-
Lemmas about CSV files that are written and read (C47).
-/
namespace Conduit
open Spec Node CsvFile Table

theorem parts_slashed : ∀ (p : List Str), p ≠ [] → (∀ a ∈ p, '/' ∉ a) → parts (slashed p) = p
  | [], h, _ => absurd rfl h
  | [a], _, h => parts_single (h a (by simp))
  | a :: b :: p, _, h => by
    rw [slashed_cons (by simp), parts_append (h a (by simp)), parts_slashed (b :: p) (by simp) (fun c hc => h c (by simp [hc]))]

theorem arraysOf_ne_nil (c : Str × Node) : arraysOf c ≠ [] := by
  unfold arraysOf
  split <;> simp

theorem arraysOf_path {c : Str × Node} {a : List Str × Node} (h : a ∈ arraysOf c) :
    a.1 = [c.1] ∨ ∃ k ∈ children c.2, a.1 = [c.1, k.1] := by
  unfold arraysOf at h
  split at h
  · left; simp at h; rw [h]
  · left; simp at h; rw [h]
  · rename_i k l ks e
    right
    rw [List.mem_map] at h
    obtain ⟨x, hx, rfl⟩ := h
    exact ⟨x, by rw [e]; exact hx, rfl⟩

/-- the names a path has can be written -/
theorem path_name {values : Node} (w : Writable values) {a : List Str × Node} (ha : a ∈ arrays values) :
    a.1 ≠ [] ∧ ∀ s ∈ a.1, NameOK s := by
  unfold arrays at ha
  rw [List.mem_flatMap] at ha
  obtain ⟨c, hc, ha⟩ := ha
  rcases arraysOf_path ha with h | ⟨k, hk, h⟩
  · rw [h]
    refine ⟨by simp, fun s hs => ?_⟩
    rw [List.mem_singleton] at hs
    subst hs
    exact (w.name c hc).1
  · rw [h]
    refine ⟨by simp, fun s hs => ?_⟩
    simp only [List.mem_cons, List.not_mem_nil, or_false] at hs
    rcases hs with rfl | rfl
    · exact (w.name c hc).1
    · exact (w.name c hc).2 k hk

theorem Table.NameOK.part {s : Str} (h : NameOK s) : Part s := by
  refine ⟨?_, h.1, fun hc => (h.2.1 _ hc).2.1 rfl⟩
  rintro rfl
  obtain ⟨c, hc, _⟩ := h.2.2.1
  cases hc

theorem slashed_chars {p : List Str} {c : Char} (hc : c ≠ '/') (h : ∀ s ∈ p, c ∉ s) : c ∉ slashed p := by
  induction p with
  | nil => simp [slashed]
  | cons a p ih =>
    by_cases hp : p = []
    · subst hp
      exact h a (by simp)
    · rw [slashed_cons hp]
      simp only [List.mem_append, List.mem_cons, not_or]
      exact ⟨h a (by simp), hc, ih (fun s hs => h s (by simp [hs]))⟩

theorem slashed_head {p : List Str} (hp : p ≠ []) (h : ∀ s ∈ p, NameOK s) : ∃ c, (slashed p).head? = some c ∧ c ∉ Csv.blanks := by
  cases p with
  | nil => exact absurd rfl hp
  | cons a p =>
    obtain ⟨c, hc, hb⟩ := (h a (by simp)).2.2.1
    refine ⟨c, ?_, hb⟩
    cases p with
    | nil => exact hc
    | cons b p =>
      rw [slashed_cons (by simp)]
      cases a with
      | nil => cases hc
      | cons x a => exact hc

theorem slashed_tail : ∀ (p : List Str), p ≠ [] → (∀ s ∈ p, NameOK s) → ∃ c, (slashed p).getLast? = some c ∧ c ∉ Csv.blanks
  | [], hp, _ => absurd rfl hp
  | [a], _, h => (h a (by simp)).2.2.2
  | a :: b :: p, _, h => by
    obtain ⟨c, hc, hb⟩ := slashed_tail (b :: p) (by simp) (fun s hs => h s (by simp [hs]))
    refine ⟨c, ?_, hb⟩
    rw [slashed_cons (by simp), List.getLast?_append, List.getLast?_cons, hc]
    rfl

namespace Csv

theorem header_eq {values : Node} (w : Writable values) : header values = joinSep ((arrays values).map (fun a => slashed a.1)) ++ ['\n'] := by
  unfold header
  rw [kids_eq (fun k hk => (w.name k hk).1.part.2.2)]
  congr 1
  have h1 : (children values).map (fun c => colHeader c.1 c.2) =
      ((children values).map (fun c => (arraysOf c).map (fun a => slashed a.1))).map joinSep := by
    rw [List.map_map]
    refine List.map_congr_left fun c hc => ?_
    simp only [Function.comp]
    unfold colHeader
    rw [kids_eq (fun k hk => ((w.name c hc).2 k hk).part.2.2)]
    unfold arraysOf
    cases hch : children c.2 with
    | nil => rfl
    | cons k ks =>
      cases ks with
      | nil => rfl
      | cons l ks =>
        simp only [List.length_cons]
        rw [if_pos (by omega), List.map_map]
        rfl
  rw [h1, joinSep_flatten]
  · congr 1
    unfold arrays
    rw [List.map_flatMap, List.flatMap]
  · intro l hl
    rw [List.mem_map] at hl
    obtain ⟨c, _, rfl⟩ := hl
    simpa using arraysOf_ne_nil c

theorem joinRes_flatten : ∀ (gs : List (List (Res Str))) (ts : List Str), gs.map joinRes = ts.map Res.ok →
    ∃ uss : List (List Str), gs = uss.map (fun us => us.map Res.ok) ∧ ts = uss.map joinSep
  | [], ts, h => ⟨[], rfl, by cases ts with | nil => rfl | cons => cases h⟩
  | g :: gs, [], h => by cases h
  | g :: gs, t :: ts, h => by
    simp only [List.map_cons, List.cons.injEq] at h
    obtain ⟨us, h1, h2⟩ := joinRes_ok g t h.1
    obtain ⟨uss, h3, h4⟩ := joinRes_flatten gs ts h.2
    exact ⟨us :: uss, by rw [h1, h3]; rfl, by rw [h2, h4]; rfl⟩

/-- one row of the file: the texts of the elements -/
theorem row_eq {L : Lib} {m : Mem} {values : Node} (w : Writable values) {i : Nat} {t : Str}
    (h : joinRes ((kids values).map (fun c => colText L m c.2 i)) = .ok t) :
    ∃ us : List Str, t = joinSep us ∧ (arrays values).map (fun a => elemText L m a.2 i) = us.map Res.ok := by
  rw [kids_eq (fun k hk => (w.name k hk).1.part.2.2)] at h
  have h1 : (children values).map (fun c => colText L m c.2 i) =
      ((children values).map (fun c => (arraysOf c).map (fun a => elemText L m a.2 i))).map joinRes := by
    rw [List.map_map]
    refine List.map_congr_left fun c hc => ?_
    simp only [Function.comp]
    unfold colText
    rw [kids_eq (fun k hk => ((w.name c hc).2 k hk).part.2.2)]
    unfold arraysOf
    cases hch : children c.2 with
    | nil => rfl
    | cons k ks =>
      simp only [List.length_cons]
      rw [if_pos (by omega)]
      cases ks with
      | nil => rfl
      | cons l ks =>
        rw [List.map_map]
        rfl
  rw [h1] at h
  obtain ⟨ts, h2, rfl⟩ := joinRes_ok _ _ h
  obtain ⟨uss, h3, rfl⟩ := joinRes_flatten _ _ h2
  refine ⟨uss.flatten, joinSep_flatten _ fun us hus => ?_, ?_⟩
  · rintro rfl
    have : [] ∈ (children values).map (fun c => (arraysOf c).map (fun a => elemText L m a.2 i)) := by
      rw [h3, List.mem_map]
      exact ⟨[], hus, rfl⟩
    rw [List.mem_map] at this
    obtain ⟨c, _, hc⟩ := this
    exact arraysOf_ne_nil c (List.map_eq_nil_iff.1 hc)
  · unfold arrays
    rw [List.map_flatMap, List.flatMap, h3, List.map_flatten]

theorem load_size {m : Mem} {p : Option Ptr} {off : Int} {len : Nat} {b : List UInt8} (h : m.load p off len = .ok b) : b.length = len := by
  unfold Mem.load at h
  split at h
  · rename_i e
    injection h with h
    rw [← h, e]; rfl
  · split at h
    · cases h
    · split at h
      · split at h
        · rename_i hc
          injection h with h
          rw [← h, List.length_take, List.length_drop]
          omega
        · cases h
      · cases h

theorem elemText_number {L : Lib} {m : Mem} {c : Node} (hc : MCArray.isNumber c.dtype.id = true) {i : Nat} {t : Str} (h : elemText L m c i = .ok t) :
    ∃ old, m.load c.info.data (c.dtype.elementIndex i) c.dtype.id.bytes = .ok old ∧ old.length = c.dtype.id.bytes ∧ t = L.text c.dtype.id old := by
  unfold elemText at h
  rw [if_pos hc] at h
  cases hl : m.load c.info.data (c.dtype.elementIndex i) c.dtype.id.bytes with
  | ok old =>
    rw [hl] at h
    injection h with h
    exact ⟨old, rfl, load_size hl, h.symm⟩
  | error => rw [hl] at h; cases h
  | ub => rw [hl] at h; cases h

end Csv

theorem firsts_nil (acc : List Str) : firsts [] acc = acc := rfl

theorem firsts_append' (ps qs : List (List Str)) : ∀ acc, firsts (ps ++ qs) acc = firsts qs (firsts ps acc) := by
  induction ps with
  | nil => intro acc; rfl
  | cons p ps ih =>
    intro acc
    simp only [List.cons_append, firsts]
    exact ih _

/-- several paths with the same first name -/
theorem firsts_same (a : Str) : ∀ (ps : List (List Str)), (∀ p ∈ ps, p.head? = some a) → ∀ acc, a ∈ acc → firsts ps acc = acc
  | [], _, _, _ => rfl
  | p :: ps, h, acc, ha => by
    rw [firsts, h p (by simp)]
    simp only [if_pos ha]
    exact firsts_same a ps (fun q hq => h q (by simp [hq])) acc ha

theorem firsts_group (a : Str) {ps : List (List Str)} (hne : ps ≠ []) (h : ∀ p ∈ ps, p.head? = some a) {acc : List Str} (ha : a ∉ acc) :
    firsts ps acc = acc ++ [a] := by
  cases ps with
  | nil => exact absurd rfl hne
  | cons p ps =>
    rw [firsts, h p (by simp)]
    simp only [if_neg ha]
    exact firsts_same a ps (fun q hq => h q (by simp [hq])) _ (by simp)

theorem firsts_arrays : ∀ (cs : List (Str × Node)) (acc : List Str), (cs.map (·.1)).Nodup → (∀ c ∈ cs, c.1 ∉ acc) →
    firsts ((cs.flatMap arraysOf).map (·.1)) acc = acc ++ cs.map (·.1)
  | [], acc, _, _ => by simp [firsts]
  | c :: cs, acc, hnd, hac => by
    simp only [List.map_cons, List.nodup_cons] at hnd
    rw [List.flatMap_cons, List.map_append, firsts_append', firsts_group c.1 (by simpa using arraysOf_ne_nil c) (by
      intro p hp
      rw [List.mem_map] at hp
      obtain ⟨a, ha, rfl⟩ := hp
      rcases arraysOf_path ha with h | ⟨k, _, h⟩ <;> rw [h] <;> rfl) (hac c (by simp)),
      firsts_arrays cs _ hnd.2]
    · simp
    · intro d hd
      simp only [List.mem_append, List.mem_singleton, not_or]
      refine ⟨hac d (by simp [hd]), ?_⟩
      intro e
      exact hnd.1 (by rw [← e]; exact List.mem_map_of_mem hd)

theorem two_prefix {a b d : Str} : ¬ ([a, b] : List Str) <+: [a, d] ∨ b = d := by
  by_cases h : b = d
  · exact .inr h
  · left
    intro hp
    simp only [List.cons_prefix_cons, true_and] at hp
    exact h hp.1

theorem arrays_names {values : Node} (w : Writable values) :
    GoodNames ((arrays values).map (fun a => slashed a.1)) ∧ ((arrays values).map (fun a => slashed a.1)).map parts = (arrays values).map (·.1) := by
  have hparts : ∀ a ∈ arrays values, parts (slashed a.1) = a.1 := fun a ha =>
    parts_slashed _ (path_name w ha).1 (fun s hs => ((path_name w ha).2 s hs).part.2.2)
  refine ⟨⟨?_, ?_⟩, ?_⟩
  · intro n hn
    rw [List.mem_map] at hn
    obtain ⟨a, ha, rfl⟩ := hn
    intro s hs
    rw [hparts a ha] at hs
    have := ((path_name w ha).2 s hs).part
    exact ⟨this.1, this.2.1⟩
  · rw [List.pairwise_map]
    have key : (arrays values).Pairwise (fun a b => ¬ a.1 <+: b.1 ∧ ¬ b.1 <+: a.1) := by
      unfold arrays
      rw [List.pairwise_flatMap]
      constructor
      · intro c hc
        have hnd := w.nodupC c hc
        unfold arraysOf
        split
        · simp
        · simp
        · rename_i k l ks e
          rw [e] at hnd
          rw [List.pairwise_map]
          rw [List.Nodup, List.pairwise_map] at hnd
          refine hnd.imp fun {x y} hxy => ?_
          constructor
          · rcases two_prefix (a := c.1) (b := x.1) (d := y.1) with h | h
            · exact h
            · exact absurd h hxy
          · rcases two_prefix (a := c.1) (b := y.1) (d := x.1) with h | h
            · exact h
            · exact absurd h.symm hxy
      · have hnd := w.nodup
        rw [List.Nodup, List.pairwise_map] at hnd
        refine hnd.imp fun {x y} hxy a ha b hb => ?_
        have h1 : ∃ r, a.1 = x.1 :: r := by
          rcases arraysOf_path ha with h | ⟨k, _, h⟩
          · exact ⟨[], h⟩
          · exact ⟨[k.1], h⟩
        have h2 : ∃ r, b.1 = y.1 :: r := by
          rcases arraysOf_path hb with h | ⟨k, _, h⟩
          · exact ⟨[], h⟩
          · exact ⟨[k.1], h⟩
        obtain ⟨r1, h1⟩ := h1
        obtain ⟨r2, h2⟩ := h2
        rw [h1, h2]
        simp only [List.cons_prefix_cons]
        exact ⟨fun h => hxy h.1, fun h => hxy h.1.symm⟩
    refine List.Pairwise.imp_of_mem ?_ key
    intro a b ha hb h
    rw [hparts a ha, hparts b hb]
    exact h
  · rw [List.map_map]
    exact List.map_congr_left fun a ha => hparts a ha

/-- every array has as many elements as the table has rows -/
theorem arrays_rows {values : Node} (w : Writable values) {a : List Str × Node} (ha : a ∈ arrays values) : a.2.dtype.n = Csv.nrows values := by
  unfold arrays at ha
  rw [List.mem_flatMap] at ha
  obtain ⟨c, hc, ha⟩ := ha
  have h1 : a.2.dtype.n = rows c.2 := by
    have hok := w.valid.2.1 c hc
    unfold arraysOf at ha
    unfold rows
    split at ha
    · rename_i e
      rw [e]
      simp at ha
      rw [ha]
    · rename_i k e
      rw [e]
      simp at ha
      rw [ha]
    · rename_i k l ks e
      rw [e]
      rw [List.mem_map] at ha
      obtain ⟨x, hx, rfl⟩ := ha
      unfold ColumnOK at hok
      have ht : isTree c.2 = true := by
        obtain ⟨nm, c⟩ := c
        cases c with
        | leaf x d => cases e
        | obj x es => rfl
        | lst x es => rfl
      rw [if_pos ht] at hok
      exact hok.1.2.2 x.2.dtype (by rw [e]; exact List.mem_map_of_mem (f := fun e : Str × Node => e.2.dtype) hx) k.2.dtype
        (by rw [e]; exact List.mem_map_of_mem (f := fun e : Str × Node => e.2.dtype) (by simp))
  rw [h1]
  unfold Csv.nrows
  rw [Csv.kids_eq (fun k hk => (w.name k hk).1.part.2.2)]
  cases hch : children values with
  | nil => rw [hch] at hc; cases hc
  | cons d ds =>
    have hd : d ∈ children values := by rw [hch]; simp
    have := w.valid.2.2 c hc d hd
    rw [this]
    obtain ⟨nm, d⟩ := d
    simp only
    rw [Csv.kids_eq (fun k hk => ((w.name _ hd).2 k hk).part.2.2)]
    unfold rows
    cases children d with
    | nil => rfl
    | cons k ks => rfl

/-- what the file of a table is -/
theorem writeCsv_lines {L : Csv.Lib} {m : Mem} {values : Node} {text : Str} {f64 : Bool} (pr : Prints L f64) (w : Writable values)
    (h : Csv.writeCsv L m values = .ok text) (hne : arrays values ≠ []) :
    ∃ hd rs, lines text = hd :: rs ∧ names hd = (arrays values).map (fun a => slashed a.1) ∧ rs.length = (Csv.nrows values).toNat ∧
      ∀ (i : Nat) row, rs[i]? = some row → (entries row).length = (arrays values).length ∧
        ∀ (j : Nat) a, (arrays values)[j]? = some a → ∃ old e, m.load a.2.info.data (a.2.dtype.elementIndex i) a.2.dtype.id.bytes = .ok old ∧
          (entries row)[j]? = some e ∧ L.num f64 e = L.num f64 (L.text a.2.dtype.id old) ∧ (L.num f64 e).isSome := by
  unfold Csv.writeCsv at h
  rw [Res.bind_eq_ok] at h
  obtain ⟨ok, h1, h⟩ := h
  split at h
  · unfold Csv.writeValues at h
    rw [Res.bind_eq_ok] at h
    obtain ⟨body, h2, h⟩ := h
    injection h with h
    obtain ⟨ts, h3, h4, h5⟩ := Csv.rowsText_ok _ _ _ h2
    have hname : ∀ a ∈ arrays values, ',' ∉ slashed a.1 ∧ '\n' ∉ slashed a.1 := by
      intro a ha
      have hp := (path_name w ha).2
      exact ⟨slashed_chars (by decide) (fun s hs hc => ((hp s hs).2.1 _ hc).1 rfl),
        slashed_chars (by decide) (fun s hs hc => ((hp s hs).2.1 _ hc).2.2 rfl)⟩
    have hrow : ∀ (i : Nat) t, ts[i]? = some t → ∃ us : List Str, t = Csv.joinSep us ∧ us.length = (arrays values).length ∧
        ∀ (j : Nat) a, (arrays values)[j]? = some a → ∃ old, m.load a.2.info.data (a.2.dtype.elementIndex i) a.2.dtype.id.bytes = .ok old ∧
          old.length = a.2.dtype.id.bytes ∧ us[j]? = some (L.text a.2.dtype.id old) := by
      intro i t hi
      have h6 := h5 i t hi
      rw [Nat.zero_add] at h6
      obtain ⟨us, h7, h8⟩ := Csv.row_eq w h6
      have hlen := congrArg List.length h8
      simp only [List.length_map] at hlen
      refine ⟨us, h7, hlen.symm, fun j a ha => ?_⟩
      have h9 : ((arrays values).map (fun a => Csv.elemText L m a.2 i))[j]? = some (Csv.elemText L m a.2 i) := by
        rw [List.getElem?_map, ha]; rfl
      rw [h8, List.getElem?_map, Option.map_eq_some_iff] at h9
      obtain ⟨u, hu, he⟩ := h9
      obtain ⟨old, h10, h11, h12⟩ := Csv.elemText_number (w.number a (List.mem_of_getElem? ha)) he.symm
      exact ⟨old, h10, h11, by rw [hu, h12]⟩
    have hus : ∀ (us : List Str) (i : Nat), us.length = (arrays values).length → (∀ (j : Nat) a, (arrays values)[j]? = some a →
        ∃ old, m.load a.2.info.data (a.2.dtype.elementIndex i) a.2.dtype.id.bytes = .ok old ∧
          old.length = a.2.dtype.id.bytes ∧ us[j]? = some (L.text a.2.dtype.id old)) → ∀ u ∈ us, ',' ∉ u ∧ '\n' ∉ u ∧ (L.num f64 u).isSome ∧
            L.num f64 (' ' :: u) = L.num f64 u := by
      intro us i hl hu u hm
      obtain ⟨j, hj, rfl⟩ := List.getElem_of_mem hm
      have hja : j < (arrays values).length := by omega
      obtain ⟨old, _, h2, h3⟩ := hu j (arrays values)[j] (List.getElem?_eq_getElem hja)
      rw [List.getElem?_eq_getElem hj] at h3
      injection h3 with h3
      rw [h3]
      exact pr _ _ (w.number _ (List.getElem_mem hja)) h2
    have hnl : ∀ t ∈ ts, '\n' ∉ t := by
      intro t ht
      obtain ⟨i, hi, rfl⟩ := List.getElem_of_mem ht
      obtain ⟨us, h6, h7, h8⟩ := hrow i ts[i] (List.getElem?_eq_getElem hi)
      rw [h6]
      exact Csv.joinSep_not_mem (by decide) (by decide) us (fun u hu => (hus us i h7 h8 u hu).2.1)
    refine ⟨Csv.joinSep ((arrays values).map (fun a => slashed a.1)), ts, ?_, ?_, h3, ?_⟩
    · rw [← h, Csv.header_eq w, h4, List.append_assoc, List.singleton_append, Csv.lines_append, Csv.lines_flatten ts hnl]
      refine Csv.joinSep_not_mem (by decide) (by decide) _ fun s hs => ?_
      rw [List.mem_map] at hs
      obtain ⟨a, ha, rfl⟩ := hs
      exact (hname a ha).2
    · have htrim : ∀ s ∈ (arrays values).map (fun a => slashed a.1), trimString s Csv.blanks = s ∧ trimString (' ' :: s) Csv.blanks = s := by
        intro s hs
        rw [List.mem_map] at hs
        obtain ⟨a, ha, rfl⟩ := hs
        obtain ⟨p1, p2⟩ := path_name w ha
        obtain ⟨c, h1, h2⟩ := slashed_head p1 p2
        obtain ⟨d, h3, h4⟩ := slashed_tail _ p1 p2
        exact Csv.trim_ok h1 h2 h3 h4
      have hcomma : ∀ s ∈ (arrays values).map (fun a => slashed a.1), ',' ∉ s := by
        intro s hs
        rw [List.mem_map] at hs
        obtain ⟨a, ha, rfl⟩ := hs
        exact (hname a ha).1
      have hne' : (arrays values).map (fun a => slashed a.1) ≠ [] := by simpa using hne
      generalize (arrays values).map (fun a => slashed a.1) = l at *
      cases l with
      | nil => exact absurd rfl hne'
      | cons a l =>
        unfold names
        rw [Csv.entries_joinSep a l (hcomma a (by simp)) (fun s hs => hcomma s (by simp [hs])), List.map_cons, (htrim a (by simp)).1, List.map_map]
        congr 1
        refine Eq.trans (List.map_congr_left (g := id) fun s hs => ?_) (List.map_id l)
        exact (htrim s (by simp [hs])).2
    · intro i row hi
      obtain ⟨us, h6, h7, h8⟩ := hrow i row hi
      have hall := hus us i h7 h8
      cases us with
      | nil =>
        exact absurd (List.length_eq_zero_iff.1 h7.symm) hne
      | cons u us =>
        have he := Csv.entries_joinSep u us (hall u (by simp)).1 (fun s hs => (hall s (by simp [hs])).1)
        rw [h6, he]
        refine ⟨by simp at h7 ⊢; exact h7, fun j a ha => ?_⟩
        obtain ⟨old, h9, h10, h11⟩ := h8 j a ha
        have hmem := hall _ (List.mem_of_getElem? h11)
        cases j with
        | zero =>
          injection h11 with h11
          subst h11
          exact ⟨old, _, h9, rfl, rfl, hmem.2.2.1⟩
        | succ j =>
          rw [List.getElem?_cons_succ] at h11
          refine ⟨old, ' ' :: L.text a.2.dtype.id old, h9, ?_, hmem.2.2.2, ?_⟩
          · rw [List.getElem?_cons_succ, List.getElem?_map, h11]; rfl
          · rw [hmem.2.2.2]; exact hmem.2.2.1
  · cases h

/-- what was read is what was written -/
theorem readBack_of {L : Csv.Lib} {m : Mem} {values : Node} {f64 : Bool} (w : Writable values) {hd : Str} {rs : List Str}
    (hn : names hd = (arrays values).map (fun a => slashed a.1)) (hl : rs.length = (Csv.nrows values).toNat)
    (hr : ∀ (i : Nat) row, rs[i]? = some row → (entries row).length = (arrays values).length ∧
        ∀ (j : Nat) a, (arrays values)[j]? = some a → ∃ old e, m.load a.2.info.data (a.2.dtype.elementIndex i) a.2.dtype.id.bytes = .ok old ∧
          (entries row)[j]? = some e ∧ L.num f64 e = L.num f64 (L.text a.2.dtype.id old) ∧ (L.num f64 e).isSome)
    {h : Heap} {v : Nat} (H : Holds L f64 (names hd) rs h v) : ReadBack L f64 m values h v := by
  obtain ⟨_, hp⟩ := arrays_names w
  constructor
  · rw [H.top, hn, hp]
    have := firsts_arrays (children values) [] w.nodup (by simp)
    unfold arrays
    rw [this, List.nil_append]
  · intro a ha
    obtain ⟨j, hj, rfl⟩ := List.getElem_of_mem ha
    have hja : (arrays values)[j]? = some (arrays values)[j] := List.getElem?_eq_getElem hj
    obtain ⟨c, h1, h2, h3⟩ := H.column j (slashed (arrays values)[j].1) (by rw [hn, List.getElem?_map, hja]; rfl)
    have hps : parts (slashed (arrays values)[j].1) = (arrays values)[j].1 := by
      have := congrArg (fun l => l[j]?) hp
      simp only [List.getElem?_map, hja, Option.map_some, Option.some.injEq] at this
      exact this
    rw [hps] at h1
    have hrow := arrays_rows w ha
    refine ⟨c, h1, by rw [h2, hl, hrow], fun i hi => ?_⟩
    rw [hrow, ← hl] at hi
    have hir : rs[i]? = some rs[i] := List.getElem?_eq_getElem hi
    obtain ⟨_, h4⟩ := hr i rs[i] hir
    obtain ⟨old, e, h5, h6, h7, h8⟩ := h4 j _ hja
    obtain ⟨new, hnew⟩ := Option.isSome_iff_exists.1 h8
    refine ⟨old, new, h5, by rw [← h7, hnew], ?_⟩
    rw [h3 i rs[i] hir]
    unfold cell
    rw [h6]
    simp only [hnew, Option.getD_some]
  · intro p c d h1 h2
    obtain ⟨name, h3, h4⟩ := H.only p c d h1 h2
    rw [hn, List.mem_map] at h3
    obtain ⟨a, ha, rfl⟩ := h3
    refine ⟨a, ha, ?_⟩
    rw [h4]
    exact parts_slashed _ (path_name w ha).1 (fun s hs => ((path_name w ha).2 s hs).part.2.2)

end Conduit
