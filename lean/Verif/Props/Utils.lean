import Verif.Model.Utils
import Verif.Lemmas.Str
import Mathlib.Data.Nat.Prime.Basic
/-
Property theorems C41 (value_fits), C43 (factor), C44 (protocol detection),
C56 (allocator registry).
-/
namespace Conduit

/-! ## C41 -/

/-- The numbers a C++ integer type holds, stated by bounds. -/
def IntTy.Holds (t : IntTy) (v : Int) : Prop :=
  match t.signed, t.width with
  | true, .w8 => -128 ≤ v ∧ v ≤ 127
  | true, .w16 => -32768 ≤ v ∧ v ≤ 32767
  | true, .w32 => -2147483648 ≤ v ∧ v ≤ 2147483647
  | true, .w64 => -9223372036854775808 ≤ v ∧ v ≤ 9223372036854775807
  | false, .w8 => 0 ≤ v ∧ v ≤ 255
  | false, .w16 => 0 ≤ v ∧ v ≤ 65535
  | false, .w32 => 0 ≤ v ∧ v ≤ 4294967295
  | false, .w64 => 0 ≤ v ∧ v ≤ 18446744073709551615

/-- C41: for every pair of integer types and every value of the source type, `value_fits`
    holds exactly when the value is one the destination type holds. -/
theorem C41_value_fits (src dst : IntTy) (v : Int) (hv : src.Holds v) :
    valueFits src dst v = true ↔ dst.Holds v := by
  obtain ⟨ss, sw⟩ := src; obtain ⟨ds, dw⟩ := dst
  cases ss <;> cases sw <;> cases ds <;> cases dw <;>
    simp only [IntTy.Holds, valueFits, IntTy.cast, IntWidth.card, IntTy.mk.injEq, reduceCtorEq, and_true, and_false,
      true_and, false_and, if_true, if_false, Bool.and_eq_true, beq_iff_eq, decide_eq_decide, true_iff] at * <;>
    omega

example : IntTy.Holds ⟨true, .w64⟩ (-2147483649) ∧ valueFits ⟨true, .w64⟩ ⟨true, .w32⟩ (-2147483649) = false ∧
    valueFits ⟨true, .w64⟩ ⟨true, .w32⟩ (-2147483648) = true :=
  ⟨by simp only [IntTy.Holds]; decide, by decide, by decide⟩

/-- C41, the use in relay MPI: the check guarding every message size accepts exactly the
    sizes an `int` count can carry. -/
theorem C41_message_size (n : Int) (h0 : 0 ≤ n) (h : n < 2 ^ 63) :
    valueFits ⟨true, .w64⟩ ⟨true, .w32⟩ n = true ↔ n < 2 ^ 31 := by
  rw [C41_value_fits _ _ _ (by simp only [IntTy.Holds]; omega)]
  simp only [IntTy.Holds]; omega

example : valueFits ⟨true, .w64⟩ ⟨true, .w32⟩ (2 ^ 31) = false ∧
    valueFits ⟨true, .w64⟩ ⟨true, .w32⟩ (2 ^ 31 - 1) = true := by decide

/-! ## C43 -/

/-- The state of the loop at trial divisor `f`: the factors pushed so far are primes below
    `f` in non-decreasing order, their product is `prod`, and `n` is the cofactor, free of
    factors below `f`. -/
private structure FState (num f n prod : Nat) (acc : List Nat) : Prop where
  mul : prod * n = num
  prod : acc.prod = prod
  prime : ∀ p ∈ acc, p.Prime
  sorted : acc.Pairwise (· ≤ ·)
  below : ∀ p ∈ acc, p < f
  rough : ∀ g, 2 ≤ g → g < f → ¬ g ∣ n
  pos : 1 ≤ n

/-- As `FState`, inside the inner loop: the factor `f` may already have been pushed. -/
private structure FStateI (num f n prod : Nat) (acc : List Nat) : Prop where
  mul : prod * n = num
  prod : acc.prod = prod
  prime : ∀ p ∈ acc, p.Prime
  sorted : acc.Pairwise (· ≤ ·)
  below : ∀ p ∈ acc, p ≤ f
  rough : ∀ g, 2 ≤ g → g < f → ¬ g ∣ n
  pos : 1 ≤ n

private theorem factorInner_state (num f : Nat) (hf : 2 ≤ f) (n prod : Nat) (acc : List Nat)
    (h : FStateI num f n prod acc) :
    FState num (f + 1) (factorInner f n prod acc).1 (factorInner f n prod acc).2.1
      (factorInner f n prod acc).2.2 := by
  induction n using Nat.strongRecOn generalizing prod acc with
  | _ n ih =>
    rw [factorInner]
    split
    · rename_i hc
      have hd : f ∣ n := Nat.dvd_of_mod_eq_zero hc.1
      have hp : f.Prime := by
        rw [Nat.prime_def_lt]
        refine ⟨hf, fun m hm hmf => ?_⟩
        by_contra h1
        have h2 : m ≠ 0 := by rintro rfl; simp at hmf; omega
        exact h.rough m (by omega) hm (Nat.dvd_trans hmf hd)
      refine ih (n / f) (Nat.div_lt_self (by omega) (by omega)) _ _ ⟨?_, ?_, ?_, ?_, ?_, ?_, ?_⟩
      · rw [Nat.mul_assoc, Nat.mul_div_cancel' hd]; exact h.mul
      · simp [h.prod]
      · intro p hp'; rcases List.mem_append.1 hp' with h1 | h1
        · exact h.prime p h1
        · simp at h1; subst h1; exact hp
      · rw [List.pairwise_append]
        refine ⟨h.sorted, by simp, fun a ha b hb => ?_⟩
        simp at hb; subst hb; exact h.below a ha
      · intro p hp'; rcases List.mem_append.1 hp' with h1 | h1
        · exact h.below p h1
        · simp at h1; omega
      · intro g h2 hg hdv; exact h.rough g h2 hg (Nat.dvd_trans hdv (Nat.div_dvd_of_dvd hd))
      · exact Nat.div_pos (Nat.le_of_dvd (by omega) hd) (by omega)
    · rename_i hc
      refine ⟨h.mul, h.prod, h.prime, h.sorted, fun p hp => Nat.lt_succ_of_le (h.below p hp), ?_, h.pos⟩
      intro g h2 hg hdv
      rcases Nat.lt_or_ge g f with h1 | h1
      · exact h.rough g h2 h1 hdv
      · have : g = f := by omega
        subst this
        exact hc ⟨Nat.mod_eq_zero_of_dvd hdv, h.pos, hf⟩

private theorem factorOuter_state (num f n prod : Nat) (acc : List Nat) (hf : 2 ≤ f) (hn : 2 ≤ num)
    (h : FState num f n prod acc) :
    (∀ p ∈ factorOuter num f n prod acc, p.Prime) ∧ (factorOuter num f n prod acc).Pairwise (· ≤ ·) ∧
      (factorOuter num f n prod acc).prod = num := by
  induction hk : num + 1 - f using Nat.strongRecOn generalizing f n prod acc with
  | _ k ih =>
    rw [factorOuter]
    split
    · rename_i hc
      have hi := factorInner_state num f hf n prod acc
        ⟨h.mul, h.prod, h.prime, h.sorted, fun p hp => Nat.le_of_lt (h.below p hp), h.rough, h.pos⟩
      exact ih (num + 1 - (f + 1)) (by omega) (f + 1) _ _ _ (by omega) hi rfl
    · rename_i hc
      refine ⟨h.prime, h.sorted, ?_⟩
      have hle : prod ≤ num := by
        have := h.mul; have := h.pos
        calc prod = prod * 1 := by omega
          _ ≤ prod * n := Nat.mul_le_mul_left _ h.pos
          _ = num := h.mul
      rw [h.prod]
      by_contra hne
      have hlt : prod < num := by omega
      have hfn : num < f := by
        by_contra hx; exact hc ⟨by omega, hlt⟩
      have hn1 : n = 1 := by
        by_contra h1
        have hnle : n ≤ num := Nat.le_of_dvd (by omega) ⟨prod, by rw [Nat.mul_comm]; exact h.mul.symm⟩
        have := h.pos
        exact h.rough n (by omega) (by omega) (Nat.dvd_refl n)
      subst hn1; have := h.mul; omega

/-- C43: for every number from 2 on, `factor` returns its prime factorisation: primes, in
    non-decreasing order, with the number as their product. -/
theorem C43_factor (num : Int) (h : 2 ≤ num) :
    (∀ p ∈ factor num, p.Prime) ∧ (factor num).Pairwise (· ≤ ·) ∧ ((factor num).prod : Int) = num := by
  have hs := factorOuter_state num.toNat 2 num.toNat 1 [] (by omega) (by omega)
    ⟨by omega, rfl, by simp, by simp, by simp, fun g h1 h2 => by omega, by omega⟩
  have hne : factorOuter num.toNat 2 num.toNat 1 [] ≠ [] := by
    intro h0; rw [h0] at hs; have := hs.2.2; simp at this; omega
  have he : factor num = factorOuter num.toNat 2 num.toNat 1 [] := by
    unfold factor; simp only []
    rw [if_neg (by omega : ¬ num < 2), if_neg hne]
  rw [he]; exact ⟨hs.1, hs.2.1, by rw [hs.2.2]; omega⟩

/-- C43: below 2 there is nothing to factor; the answer is the single factor 1, so the
    product is the number only for 1. -/
theorem C43_factor_small (num : Int) (h : num < 2) : factor num = [1] := by
  unfold factor; simp [h]; omega

example : (2 : Int) ≤ 360 := by decide

/-! ## C44 -/

/-- The protocol table the documentation of `Node::save`/`Node::load` gives: file extension
    (text after the last dot of the file name) to protocol. -/
def protocolTable : List (Str × Str) :=
  [(chars! "json", chars! "json"), (chars! "conduit_json", chars! "conduit_json"),
   (chars! "conduit_base64_json", chars! "conduit_base64_json"), (chars! "yaml", chars! "yaml")]

/-- The extensions relay adds. -/
def relayTable : List (Str × Str) :=
  protocolTable ++
  [(chars! "hdf5", chars! "hdf5"), (chars! "h5", chars! "hdf5"), (chars! "silo", chars! "conduit_silo"),
   (chars! "bp", chars! "adios"), (chars! "adios", chars! "adios"), (chars! "csv", chars! "csv")]

/-- Protocol of an extension, `conduit_bin` when the table does not list it. -/
def protocolOf (table : List (Str × Str)) (ext : Str) : Str :=
  ((table.find? (·.1 == ext)).map (·.2)).getD (chars! "conduit_bin")

private theorem node_of_ext (path ext : Str)
    (h : (rsplitString (splitFilePath path ':').1 '.').1 = ext) : nodeProtocol path = protocolOf protocolTable ext := by
  unfold nodeProtocol; simp only [h]
  by_cases h1 : ext = chars! "json"; · subst h1; decide
  by_cases h2 : ext = chars! "conduit_json"; · subst h2; decide
  by_cases h3 : ext = chars! "conduit_base64_json"; · subst h3; decide
  by_cases h4 : ext = chars! "yaml"; · subst h4; decide
  rw [if_neg h1, if_neg h2, if_neg h3, if_neg h4]
  have e : protocolTable.find? (·.1 == ext) = none := by
    rw [List.find?_eq_none]; intro x hx
    simp only [protocolTable, List.mem_cons, List.not_mem_nil, or_false] at hx
    rcases hx with rfl | rfl | rfl | rfl <;> simp <;> intro h <;> simp_all
  unfold protocolOf; rw [e]; rfl

private theorem relay_of_ext (path ext : Str)
    (h : (rsplitString (splitFilePath path ':').1 '.').1 = ext) : relayProtocol path = protocolOf relayTable ext := by
  unfold relayProtocol; simp only [h]
  by_cases h1 : ext = chars! "json"; · subst h1; decide
  by_cases h2 : ext = chars! "conduit_json"; · subst h2; decide
  by_cases h3 : ext = chars! "conduit_base64_json"; · subst h3; decide
  by_cases h4 : ext = chars! "yaml"; · subst h4; decide
  by_cases h5 : ext = chars! "hdf5"; · subst h5; decide
  by_cases h6 : ext = chars! "h5"; · subst h6; decide
  by_cases h7 : ext = chars! "silo"; · subst h7; decide
  by_cases h8 : ext = chars! "bp"; · subst h8; decide
  by_cases h9 : ext = chars! "adios"; · subst h9; decide
  by_cases h10 : ext = chars! "csv"; · subst h10; decide
  rw [if_neg (by simp only [h5, h6, or_self, not_false_eq_true]), if_neg h7, if_neg h1, if_neg h2, if_neg h3, if_neg h4,
    if_neg (by simp only [h8, h9, or_self, not_false_eq_true]), if_neg h10]
  have e : relayTable.find? (·.1 == ext) = none := by
    rw [List.find?_eq_none]; intro x hx
    simp only [relayTable, protocolTable, List.cons_append, List.nil_append, List.mem_cons, List.not_mem_nil,
      or_false] at hx
    rcases hx with rfl | rfl | rfl | rfl | rfl | rfl | rfl | rfl | rfl | rfl <;> simp <;> intro h <;> simp_all
  unfold protocolOf; rw [e]; rfl

/-- `split_file_path(path, ":")` keeps everything before the colon that starts the path
    inside the file; a drive prefix `X:\\` stays with the file. -/
private theorem file_part (drv file tail : Str) (hv : drv = [] ∨ ∃ c, drv = [c, ':', '\\'])
    (hc : ':' ∉ file) (h2 : 2 ≤ file.length) (ht : tail = [] ∨ tail.head? = some ':') :
    (splitFilePath (drv ++ file ++ tail) ':').1 = drv ++ file := by
  have key : (splitString (file ++ tail) ':').1 = file := by
    rcases ht with rfl | ht
    · rw [List.append_nil, splitString_not_mem hc]
    · cases tail with
      | nil => simp at ht
      | cons c t => simp at ht; subst ht; rw [splitString_append hc]
  rcases hv with rfl | ⟨c, rfl⟩
  · have hd : isDrive (file ++ tail) ':' = false := by
      unfold isDrive
      match file, h2 with
      | a :: b :: f, _ =>
        have : b ≠ ':' := by rintro rfl; simp at hc
        simp [this]
    unfold splitFilePath; simp only [List.nil_append, hd, Bool.false_eq_true, if_false]; exact key
  · have hd : isDrive ([c, ':', '\\'] ++ file ++ tail) ':' = true := by
      unfold isDrive; simp
    unfold splitFilePath; simp only [hd, if_true]
    rw [if_pos (by simp; omega)]
    simp only [List.cons_append, List.nil_append, List.drop_succ_cons, List.drop_zero, List.take_succ_cons,
      List.take_zero, key]

/-- A path as users write it: an optional Windows drive, a directory part (empty or ending in
    a slash), a file name, and nothing or `:` followed by a path inside the file. -/
structure UserPath where
  drive : Str
  dir : Str
  name : Str
  inner : Str
  hdrive : drive = [] ∨ ∃ c, drive = [c, ':', '\\']
  hdir : dir = [] ∨ dir.getLast? = some '/'
  hname : '/' ∉ name
  hinner : inner = [] ∨ inner.head? = some ':'
  /-- the file part has no colon -/
  hcolon : ':' ∉ dir ++ name
  hlen : 2 ≤ (dir ++ name).length

def UserPath.text (p : UserPath) : Str := p.drive ++ (p.dir ++ p.name) ++ p.inner

/-- C44: whatever the directories contain, and whatever follows the colon, the protocol
    `Node::save`/`Node::load` choose is the one listed for the file name's extension. -/
theorem C44_node_protocol (p : UserPath) (stem ext : Str) (hn : p.name = stem ++ '.' :: ext) (he : '.' ∉ ext) :
    nodeProtocol p.text = protocolOf protocolTable ext := by
  apply node_of_ext
  rw [UserPath.text, file_part _ _ _ p.hdrive p.hcolon p.hlen p.hinner, hn,
    ← List.append_assoc, ← List.append_assoc, rsplitString_append he]

/-- C44: the same for `relay::io`. -/
theorem C44_relay_protocol (p : UserPath) (stem ext : Str) (hn : p.name = stem ++ '.' :: ext) (he : '.' ∉ ext) :
    relayProtocol p.text = protocolOf relayTable ext := by
  apply relay_of_ext
  rw [UserPath.text, file_part _ _ _ p.hdrive p.hcolon p.hlen p.hinner, hn,
    ← List.append_assoc, ← List.append_assoc, rsplitString_append he]

/-- a path with dots in the directory and an inner path: `out.json/a.b/run.v2.yaml:x/y.json` -/
def demoPath : UserPath where
  drive := []
  dir := chars! "out.json/a.b/"
  name := chars! "run.v2.yaml"
  inner := chars! ":x/y.json"
  hdrive := .inl rfl
  hdir := by decide
  hname := by decide
  hinner := by decide
  hcolon := by decide
  hlen := by decide

example : demoPath.name = chars! "run.v2" ++ '.' :: chars! "yaml" ∧ '.' ∉ chars! "yaml" ∧
    nodeProtocol demoPath.text = chars! "yaml" ∧ relayProtocol demoPath.text = chars! "yaml" := by decide

private theorem protocolOf_slash (t : List (Str × Str)) (ext : Str) (ht : ∀ x ∈ t, '/' ∉ x.1) (h : '/' ∈ ext) :
    protocolOf t ext = chars! "conduit_bin" := by
  unfold protocolOf
  rw [List.find?_eq_none.2]; · rfl
  intro x hx hxe
  simp only [beq_iff_eq] at hxe; subst hxe; exact ht x hx h

private theorem mem_of_last {d : Str} (h : d.getLast? = some '/') : '/' ∈ d := List.mem_of_getLast? h

/-- C44: a file name without a dot, in a directory, gets the default protocol, whatever the
    directory is called. -/
theorem C44_no_extension_partial (p : UserPath) (hn : '.' ∉ p.name) (hd : p.dir ≠ []) :
    nodeProtocol p.text = chars! "conduit_bin" ∧ relayProtocol p.text = chars! "conduit_bin" := by
  have hl : p.dir.getLast? = some '/' := p.hdir.resolve_left hd
  have hs : '/' ∈ (rsplitString (p.drive ++ (p.dir ++ p.name)) '.').1 := by
    by_cases hm : '.' ∈ p.drive ++ p.dir
    · obtain ⟨a, b, hab, hb⟩ := exists_last hm
      have hbl : '/' ∈ b := by
        cases b with
        | nil =>
          exfalso
          have h1 : (p.drive ++ p.dir).getLast? = some '/' := by
            rw [List.getLast?_append, hl]; rfl
          rw [hab] at h1; simp at h1
        | cons c t =>
          have h1 : (p.drive ++ p.dir).getLast? = some '/' := by
            rw [List.getLast?_append, hl]; rfl
          rw [hab, List.getLast?_append] at h1
          simp only [List.getLast?_cons_cons] at h1
          cases hg : (c :: t).getLast? with
          | none => simp at hg
          | some y => rw [hg] at h1; simp at h1; subst h1; exact List.mem_of_getLast? hg
      rw [← List.append_assoc, hab, List.append_assoc, List.cons_append,
        rsplitString_append (by simp only [List.mem_append, not_or]; exact ⟨hb, hn⟩)]
      exact List.mem_append_left _ hbl
    · rw [rsplitString_not_mem (by
        simp only [List.mem_append, not_or] at hm ⊢; exact ⟨hm.1, hm.2, hn⟩)]
      simp only [List.mem_append]; exact .inr (.inl (mem_of_last hl))
  have hf := file_part _ _ _ p.hdrive p.hcolon p.hlen p.hinner
  refine ⟨?_, ?_⟩
  · rw [node_of_ext p.text _ (by rw [UserPath.text, hf])]; exact protocolOf_slash _ _ (by decide) hs
  · rw [relay_of_ext p.text _ (by rw [UserPath.text, hf])]; exact protocolOf_slash _ _ (by decide) hs

/-- `out.json/run1` -/
def demoBare : UserPath where
  drive := []
  dir := chars! "out.json/"
  name := chars! "run1"
  inner := []
  hdrive := .inl rfl
  hdir := by decide
  hname := by decide
  hinner := .inl rfl
  hcolon := by decide
  hlen := by decide

example : '.' ∉ demoBare.name ∧ demoBare.dir ≠ [] := by decide

/-- C44 is not met by a bare file name without a dot: the whole name is taken as the
    extension, so a file called `json` in the working directory is JSON, but `./json` is not. -/
theorem C44_bare_name_false : nodeProtocol (chars! "json") = chars! "json" ∧
    nodeProtocol (chars! "./json") = chars! "conduit_bin" ∧
    relayProtocol (chars! "csv") = chars! "csv" := by decide

/-- C44 is not met when a directory name holds a colon: the file is cut there and the
    extension is lost. -/
theorem C44_colon_directory_false : nodeProtocol (chars! "run:1/out.json") = chars! "conduit_bin" := by decide

/-- C44: relay and core agree on every path whose extension is one core knows. -/
theorem C44_relay_extends_node (path : Str) (h : nodeProtocol path ≠ chars! "conduit_bin") :
    relayProtocol path = nodeProtocol path := by
  unfold nodeProtocol at h ⊢; unfold relayProtocol
  simp only [] at h ⊢
  generalize (rsplitString (splitFilePath path ':').1 '.').1 = ext at h ⊢
  by_cases h1 : ext = chars! "json"; · subst h1; decide
  by_cases h2 : ext = chars! "conduit_json"; · subst h2; decide
  by_cases h3 : ext = chars! "conduit_base64_json"; · subst h3; decide
  by_cases h4 : ext = chars! "yaml"; · subst h4; decide
  rw [if_neg h1, if_neg h2, if_neg h3, if_neg h4] at h; exact absurd rfl h

example : nodeProtocol (chars! "a.yaml") ≠ chars! "conduit_bin" := by decide

/-! ## C56 -/

namespace AllocManager
variable {A F V : Type}

private theorem get_put (k k' : Int) (v : V) (m : List (Int × V)) :
    get k' (put k v m) = if k' = k then some v else get k' m := by
  induction m with
  | nil =>
    simp only [put, get, List.find?_cons, List.find?_nil]
    by_cases h : k' = k
    · subst h; simp
    · have : (k == k') = false := by simp; exact fun e => h e.symm
      simp [this, h]
  | cons x m ih =>
    obtain ⟨a, b⟩ := x
    simp only [put]
    split
    · rename_i hak; subst hak
      simp only [get, List.find?_cons]
      by_cases h : k' = a
      · subst h; simp
      · have : (a == k') = false := by simp; exact fun e => h e.symm
        simp [this, h]
    · rename_i hak
      simp only [get, List.find?_cons] at ih ⊢
      by_cases h : a = k'
      · subst h; simp [hak]
      · have : (a == k') = false := by simpa using h
        simp only [this]; exact ih

private theorem registerAll_spec (rs : List (A × F)) (s : AllocManager A F) :
    (s.registerAll rs).2 = (List.range rs.length).map (fun (i : Nat) => s.next + (i : Int)) ∧
    (s.registerAll rs).1.next = s.next + rs.length ∧
    (∀ k : Int, k < s.next → (s.registerAll rs).1.allocFn k = s.allocFn k ∧ (s.registerAll rs).1.freeFn k = s.freeFn k) ∧
    (∀ (i : Nat) (r : A × F), rs[i]? = some r → (s.registerAll rs).1.allocFn (s.next + (i : Int)) = some r.1 ∧
      (s.registerAll rs).1.freeFn (s.next + (i : Int)) = some r.2) := by
  induction rs generalizing s with
  | nil => simp [registerAll]
  | cons r rs ih =>
    obtain ⟨a, f⟩ := r
    obtain ⟨h1, h2, h3, h4⟩ := ih (s.register a f).1
    have hn : (s.register a f).1.next = s.next + 1 := rfl
    simp only [registerAll]
    refine ⟨?_, ?_, ?_, ?_⟩
    · rw [h1, hn, List.length_cons, List.range_succ_eq_map]
      simp only [List.map_cons, List.map_map, register]
      congr 1
      · simp
      · apply List.map_congr_left; intro i _; simp; omega
    · rw [h2, hn, List.length_cons]; push_cast; omega
    · intro k hk
      obtain ⟨e1, e2⟩ := h3 k (by rw [hn]; omega)
      rw [e1, e2]
      simp only [allocFn, freeFn, register, get_put]
      rw [if_neg (by omega), if_neg (by omega)]; exact ⟨rfl, rfl⟩
    · intro i r hi
      cases i with
      | zero =>
        simp at hi; subst hi
        obtain ⟨e1, e2⟩ := h3 s.next (by rw [hn]; omega)
        simp only [Int.natCast_zero, Int.add_zero]
        rw [e1, e2]
        simp only [allocFn, freeFn, register, get_put]; simp
      | succ i =>
        simp at hi
        have := h4 i r hi
        rw [hn] at this
        rwa [Int.add_assoc, Int.add_comm 1] at this

end AllocManager

/-- C56: over any sequence of `register_allocator` calls, the ids given out are all different
    and none is the default id 0. -/
theorem C56_ids_fresh {A F : Type} (a0 : A) (f0 : F) (rs : List (A × F)) :
    ((AllocManager.start a0 f0).registerAll rs).2.length = rs.length ∧
    (0 :: ((AllocManager.start a0 f0).registerAll rs).2).Nodup := by
  rw [(AllocManager.registerAll_spec rs _).1]
  refine ⟨by simp, ?_⟩
  simp only [AllocManager.start, List.nodup_cons, List.mem_map, List.mem_range, not_exists]
  refine ⟨fun i h => by omega, ?_⟩
  exact List.Pairwise.map _ (fun i j h => by omega) List.nodup_range

/-- C56: after any sequence of registrations, the id returned by the `i`-th call selects the
    pair of functions given in that call, and id 0 the default pair: a block allocated under
    an id is freed by the partner of the function that allocated it. -/
theorem C56_id_selects_pair {A F : Type} (a0 : A) (f0 : F) (rs : List (A × F)) (i : Nat) (a : A) (f : F) (id : Int)
    (hr : rs[i]? = some (a, f)) (hid : ((AllocManager.start a0 f0).registerAll rs).2[i]? = some id) :
    ((AllocManager.start a0 f0).registerAll rs).1.allocFn id = some a ∧
    ((AllocManager.start a0 f0).registerAll rs).1.freeFn id = some f := by
  obtain ⟨h1, -, -, h4⟩ := AllocManager.registerAll_spec rs (AllocManager.start a0 f0)
  rw [h1] at hid
  have : id = (AllocManager.start a0 f0).next + (i : Int) := by
    simp only [List.getElem?_map] at hid
    cases hx : (List.range rs.length)[i]? with
    | none => rw [hx] at hid; simp at hid
    | some y =>
      rw [hx] at hid; simp at hid
      obtain ⟨_, hy⟩ := List.getElem?_eq_some_iff.1 hx
      simp at hy; subst hy; exact hid.symm
  rw [this]; exact h4 i (a, f) hr

theorem C56_default_pair {A F : Type} (a0 : A) (f0 : F) (rs : List (A × F)) :
    ((AllocManager.start a0 f0).registerAll rs).1.allocFn 0 = some a0 ∧
    ((AllocManager.start a0 f0).registerAll rs).1.freeFn 0 = some f0 := by
  obtain ⟨-, -, h3, -⟩ := AllocManager.registerAll_spec rs (AllocManager.start a0 f0)
  have := h3 0 (show (0 : Int) < 1 by decide)
  rw [this.1, this.2]; exact ⟨rfl, rfl⟩

example : ((AllocManager.start 10 20).registerAll [(11, 21), (11, 22), (12, 21)]).2 = [1, 2, 3] ∧
    ((AllocManager.start 10 20).registerAll [(11, 21), (11, 22), (12, 21)]).1.freeFn 2 = some 22 := by decide

end Conduit
