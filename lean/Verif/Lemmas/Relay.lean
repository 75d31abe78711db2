import Verif.Model.Relay
import Verif.Spec.Relay
import Verif.Lemmas.UpdateCompact
import Verif.Lemmas.NodeUpdate2
import Verif.Lemmas.SchemaJson2
import Verif.Lemmas.NodeJson2
/-
The message of `send_using_schema` (C46).
-/
namespace Conduit
open Spec Spec.Tree Schema Node

namespace Relay

/-! ### the message buffer -/

theorem compactAt_sent (base : Nat → Int) (n : Node) (off : Int) :
    compactAt (sentSchema base n) off = compactAt n.schema off := by
  unfold sentSchema
  split
  · rfl
  · exact compactAt_idem _ 0 off

theorem len_total : totalBytesCompact (.leaf { DataType.ofId .int64 1 with offset := 0 }) = 8 := rfl
theorem text_total (len : Nat) :
    totalBytesCompact (.leaf { DataType.ofId .char8Str (len + 1) with offset := 8 }) = len + 1 := by
  simp [totalBytesCompact, DataType.ofId, DataType.bytesCompact, TypeId.bytes]

theorem msgSchema_eq (s : Schema) (len : Nat) :
    msgSchema len s = .obj [(chars! "schema_len", .leaf { DataType.ofId .int64 1 with offset := 0 }),
      (chars! "schema", .leaf { DataType.ofId .char8Str (len + 1) with offset := 8 }),
      (chars! "data", compactAt s (9 + len))] := by
  have h1 : compactAt (.leaf (DataType.ofId .int64 1)) 0 = .leaf { DataType.ofId .int64 1 with offset := 0 } := rfl
  have h2 : compactAt (.leaf (DataType.ofId .char8Str (len + 1))) 8 =
      .leaf { DataType.ofId .char8Str (len + 1) with offset := 8 } := rfl
  unfold msgSchema Schema.compactTo
  rw [compactAt, compactAtE, h1, len_total, show (0 : Int) + 8 = 8 from rfl, compactAtE, h2, text_total, compactAtE, compactAtE,
    show (8 : Int) + (len + 1) = 9 + len by omega]

theorem msgSchema_sent (base : Nat → Int) (n : Node) (len : Nat) :
    msgSchema len (sentSchema base n) = msgSchema len n.schema := by
  rw [msgSchema_eq, msgSchema_eq, compactAt_sent]

theorem msg_total (s : Schema) (len : Nat) :
    totalBytesCompact (msgSchema len s) = 9 + len + totalBytesCompact s := by
  rw [msgSchema_eq, totalBytesCompact, totalBytesCompactE, totalBytesCompactE, totalBytesCompactE, totalBytesCompactE, len_total,
    text_total, total_compactAt]
  omega

theorem msg_span (s : Schema) (len : Nat) (hc : CountsOK s) :
    spannedBytes (msgSchema len s) = 9 + len + totalBytesCompact s := by
  have ht := total_nonneg _ hc
  have hcm : CountsOK (.obj [(chars! "schema_len", .leaf (DataType.ofId .int64 1)),
      (chars! "schema", .leaf (DataType.ofId .char8Str (len + 1))), (chars! "data", s)] : Schema) := by
    intro d hd
    simp only [leaves, leavesE, List.mem_append, List.mem_singleton, List.not_mem_nil, or_false] at hd
    rcases hd with rfl | rfl | hd
    · simp [DataType.ofId]
    · simp only [DataType.ofId]; omega
    · exact hc d hd
  obtain ⟨_, _, h⟩ := span_compactAt _ 0 hcm (Int.le_refl 0)
  have hm := msg_total s len
  have h2 := total_compactAt (.obj [(chars! "schema_len", .leaf (DataType.ofId .int64 1)),
      (chars! "schema", .leaf (DataType.ofId .char8Str (len + 1))), (chars! "data", s)] : Schema) 0
  unfold msgSchema Schema.compactTo at hm ⊢
  rw [h2] at hm
  rw [h (by omega), hm]
  omega

/-- a block from its bytes -/
theorem block_eq {m : Mem} {b : Nat} {xs : List UInt8} (hs : m.size b = some xs.length)
    (hb : ∀ i : Nat, i < xs.length → m.byte b i = xs[i]?) : m[b]? = some (some xs) := by
  obtain ⟨bs, h⟩ := live_of_size hs
  have hl : bs.length = xs.length := by simpa [Mem.size, h] using hs
  rw [h]
  congr 2
  apply List.ext_getElem? 
  intro i
  by_cases hi : i < xs.length
  · rw [← hb i hi]
    simp [Mem.byte, h]
  · rw [List.getElem?_eq_none (by omega), List.getElem?_eq_none (by omega)]

/-- `init` with a compatible type changes nothing -/
theorem init_same {x : Info} {d d' : DataType} {m : Mem} (h : d.compatible d' = true) :
    (Node.leaf x d).init d' m = .ok (m, .leaf x d) := by
  rw [init]; exact if_pos h

theorem compat_len (o : Int) : DataType.compatible { DataType.ofId .int64 1 with offset := o } (DataType.ofId .int64 1) = true := rfl
theorem compat_text (l : Nat) (o : Int) : DataType.compatible { DataType.ofId .char8Str (l + 1) with offset := o }
    (DataType.ofId .char8Str (l + 1)) = true := by
  simp [DataType.compatible, DataType.ofId]

/-- The message: 8 bytes, the text, a 0, the bytes of all elements. -/
theorem send_message (base : Nat → Int) (big : Bool) (n : Node) (m : Mem) (text : List UInt8)
    (ht : text = (schemaText big (sentSchema base n)).map charByte)
    (hr : Readable m n) (hd : DistinctV (val m n)) :
    ∃ data : List UInt8, data.map some = flat (val m n) ∧
      sendUsingSchema base big n m =
        mpiSend (machineBytes big ⟨true, .w64⟩ text.length ++ text ++ 0 :: data) (9 + text.length + data.length) := by
  have hc := countsOK_of hr
  have t0 := total_nonneg _ hc
  let T := totalBytesCompact n.schema
  let L := text.length
  let N : Nat := (9 + L + T).toNat
  let q : Ptr := ⟨m.length, 0⟩
  let m0 := (m.alloc N).1
  let cl : DataType := { DataType.ofId .int64 1 with offset := 0 }
  let ct : DataType := { DataType.ofId .char8Str (L + 1) with offset := 8 }
  let cd : Node := walk (some q) false (compactAt n.schema (9 + L))
  have hset : setSchema (msgSchema L (sentSchema base n)) new m =
      .ok (m0, .obj ⟨some q, true⟩ [(chars! "schema_len", .leaf ⟨some q, false⟩ cl),
        (chars! "schema", .leaf ⟨some q, false⟩ ct), (chars! "data", cd)]) := by
    rw [msgSchema_sent]
    unfold setSchema
    have hal : allocate m (9 + L + T) = (m0, ⟨some q, true⟩) := by
      unfold allocate
      rw [if_neg (by omega)]; rfl
    rw [show Node.releaseMem new m = .ok m by rfl, bind_ok]
    simp only
    rw [msg_span _ _ hc, hal, msgSchema_eq]
    rfl
  have b0 : ∀ i : Int, 0 ≤ i → i < N → (m0.byte q.blk i).isSome := by
    intro i h1 h2
    show ((m.alloc N).1.byte m.length i).isSome
    rw [Mem.byte_alloc_new, if_pos ⟨h1, h2⟩]; rfl
  have sz0 : m0.size q.blk = some N := size_alloc_new m N
  -- the length
  obtain ⟨m1, s1, l1, z1, e1⟩ := Mem.store_spec (m := m0) (q := q) (off := 0) (xs := machineBytes big ⟨true, .w64⟩ L) (by
    intro k hk
    rw [machineBytes_length] at hk
    have : k < 8 := hk
    apply b0
    · simp [q]
    · simp [q]; omega)
  have r0 : setScalar .int64 (machineBytes big ⟨true, .w64⟩ L) (.leaf ⟨some q, false⟩ cl) m0 = .ok (m1, .leaf ⟨some q, false⟩ cl) := by
    unfold setScalar
    rw [init_same (compat_len 0), bind_ok]
    show (m0.store (some q) (DataType.elementIndex cl 0) _ >>= fun m2 => _) = _
    rw [show DataType.elementIndex cl 0 = 0 by rfl, s1, bind_ok]
  -- the text
  obtain ⟨m2, s2, l2, z2, e2⟩ := Mem.store_spec (m := m1) (q := q) (off := 8) (xs := text ++ [0]) (by
    intro k hk
    simp only [List.length_append, List.length_cons, List.length_nil] at hk
    rw [e1]
    split
    · rename_i hh
      rw [machineBytes_length] at hh
      rw [Option.isSome_iff_ne_none, Ne, List.getElem?_eq_none_iff, machineBytes_length]
      have : IntTy.size ⟨true, .w64⟩ = 8 := rfl
      omega
    · apply b0
      · simp [q]; omega
      · simp only [q, N, L] at *; omega)
  have r1 : setString text (.leaf ⟨some q, false⟩ ct) m1 = .ok (m2, .leaf ⟨some q, false⟩ ct) := by
    rw [setString_same _ _ _ _ (by simpa using compat_text L 8)]
    rw [if_pos ⟨rfl, rfl⟩]
    show (m1.store (some q) (DataType.elementIndex ct 0) _ >>= fun m2 => _) = _
    rw [show DataType.elementIndex ct 0 = 8 by rfl, s2, bind_ok]
  -- the data
  have ag : Agree m m2 (blocks n) := by
    intro b hb i
    have hlt := blocks_lt n hr b hb
    rw [e2, if_neg (by rintro ⟨h, _⟩; simp only [q] at h; omega), e1, if_neg (by rintro ⟨h, _⟩; simp only [q] at h; omega)]
    exact Mem.byte_alloc_old _ _ _ _ hlt
  have hr2 : Readable m2 n := (readable_agree n ag).2 hr
  have hv2 : val m2 n = val m n := val_agree n ag
  have sz2 : m2.size q.blk = some N := by rw [z2, z1]; exact sz0
  have b2 : ∀ i : Int, 0 ≤ i → i < N → (m2.byte q.blk i).isSome := by
    intro i h1 h2
    rw [Mem.byte_isSome]
    exact ⟨N, sz2, h1, h2⟩
  have hw : Readable m2 cd :=
    readable_compact q _ _ _ (readable_leaves n hr) (fun i h1 h2 => b2 i (by simp only [q] at h1; omega) (by
      simp only [q, N, T] at *; omega))
  obtain ⟨m3, u1, u2, u3, u4⟩ := update_compact (p := q) (al := false) (off := 9 + L) hr2 (by rw [hv2]; exact hd)
    (fun h => by have := blocks_lt n hr _ h; simp [q] at this) hw
  have sz3 : m3.size q.blk = some N := by rw [u2.2]; exact sz2
  obtain ⟨bs, hbs⟩ := live_of_size sz3
  have hlen : bs.length = N := by simpa [Mem.size, hbs] using sz3
  have hbyte : ∀ i : Nat, m3.byte q.blk i = bs[i]? := fun i => by simp [Mem.byte, hbs]
  have hm8 : (machineBytes big ⟨true, .w64⟩ L).length = 8 := machineBytes_length _ _ _
  have hN : N = 9 + L + T.toNat := by simp only [N]; omega
  refine ⟨bs.drop (9 + L), ?_, ?_⟩
  · rw [← hv2, ← u4, flat_walk_compact _ _ _ _ _ hc]
    apply List.ext_getElem
    · simp [Spec.run, hlen, hN, T]
    · intro i h1 h2
      simp only [List.length_map, List.length_drop, hlen] at h1
      simp only [List.getElem_map, Spec.run, List.getElem_range, List.getElem_drop, Mem.byteAt]
      have := hbyte (9 + L + i)
      rw [List.getElem?_eq_getElem (by omega)] at this
      rw [← this]
      congr 1
      simp [q]
  · have hlayout : bs = machineBytes big ⟨true, .w64⟩ L ++ text ++ 0 :: bs.drop (9 + L) := by
      apply List.ext_getElem?
      intro i
      by_cases hi : i < 9 + L
      · rw [← hbyte i, u3 _ _ (by rintro ⟨_, h, _⟩; simp only [q] at h; omega), e2]
        by_cases h8 : i < 8
        · rw [if_neg (by rintro ⟨_, h, _⟩; simp only [q] at h; omega), e1, if_pos ⟨rfl, by simp [q], by simp [q, hm8]; omega⟩]
          rw [List.append_assoc, List.getElem?_append_left (by rw [hm8]; exact h8)]
          simp [q]
        · rw [if_pos ⟨rfl, by simp [q]; omega, by simp [q]; omega⟩]
          rw [show ((i : Int) - (q.off + 8)).toNat = i - 8 by simp only [q]; omega]
          rw [show machineBytes big ⟨true, .w64⟩ L ++ text ++ 0 :: bs.drop (9 + L) =
            machineBytes big ⟨true, .w64⟩ L ++ ((text ++ [0]) ++ bs.drop (9 + L)) by simp]
          rw [List.getElem?_append_right (l₁ := machineBytes big ⟨true, .w64⟩ L) (by rw [hm8]; omega), hm8,
            List.getElem?_append_left (l₁ := text ++ [0]) (by simp; omega)]
      · rw [show machineBytes big ⟨true, .w64⟩ L ++ text ++ 0 :: bs.drop (9 + L) =
          (machineBytes big ⟨true, .w64⟩ L ++ text ++ [0]) ++ bs.drop (9 + L) by simp]
        rw [List.getElem?_append_right (by simp [hm8]; omega), List.getElem?_drop]
        congr 1
        simp only [List.length_append, hm8, List.length_cons, List.length_nil, L] at *
        omega
    have hsize : totalBytesCompact (Node.obj ⟨some q, true⟩ [(chars! "schema_len", .leaf ⟨some q, false⟩ cl),
        (chars! "schema", .leaf ⟨some q, false⟩ ct), (chars! "data", cd)]).schema = 9 + text.length + (bs.drop (9 + L)).length := by
      have : (Node.obj ⟨some q, true⟩ [(chars! "schema_len", .leaf ⟨some q, false⟩ cl),
        (chars! "schema", .leaf ⟨some q, false⟩ ct), (chars! "data", cd)]).schema = msgSchema L n.schema := by
        rw [msgSchema_eq]
        simp only [schema, schemaE, cd, schema_walk, cl, ct]
      rw [this, msg_total]
      simp only [List.length_drop, hlen, hN, T, L]
      omega
    unfold sendUsingSchema
    dsimp only
    rw [← ht, hset, bind_ok]
    simp only
    rw [r0, bind_ok, r1, bind_ok, u1, bind_ok]
    simp only [hbs]
    rw [← hlayout]
    exact congrArg _ hsize

theorem castInt_small {i : Int} (h0 : 0 ≤ i) (h1 : i < 2 ^ 31) : castInt i = i := by
  unfold castInt
  rw [Int.emod_eq_of_lt (by omega) (by omega)]
  omega

theorem mpiSend_all {bs : List UInt8} {size : Int} (h : size = bs.length) (h1 : (bs.length : Int) < 2 ^ 31) :
    mpiSend bs size = .ok bs := by
  unfold mpiSend
  rw [h, castInt_small (by omega) h1, if_neg (by omega), if_pos (by omega)]
  simp

/-! ### the text -/

/-- all characters are bytes -/
def Bytes (s : Str) : Prop := ∀ x ∈ s, x.toNat < 256

theorem bytes_append {s t : Str} (hs : Bytes s) (ht : Bytes t) : Bytes (s ++ t) := by
  intro x hx
  rcases List.mem_append.1 hx with h | h
  · exact hs x h
  · exact ht x h

theorem bytes_cons {c : Char} {t : Str} (hc : c.toNat < 256) (ht : Bytes t) : Bytes (c :: t) := by
  intro x hx
  rcases List.mem_cons.1 hx with rfl | h
  · exact hc
  · exact ht x h

theorem bytes_nil : Bytes [] := by intro x hx; cases hx

theorem bytes_int (i : Int) : Bytes (intText i) := by
  have key : ∀ (k : Nat), Bytes (Nat.toDigits 10 k) := by
    intro k x hx
    have := isDigit_toDigits hx
    simp only [Char.isDigit, Bool.and_eq_true, decide_eq_true_eq] at this
    have h2 : x.toNat ≤ '9'.toNat := this.2
    have : '9'.toNat = 57 := rfl
    omega
  unfold intText
  split
  · exact bytes_cons (by decide) (key _)
  · exact key _

theorem bytes_typeName (t : TypeId) : Bytes t.name := by cases t <;> (unfold Bytes; decide)
theorem bytes_endianName (e : Endian) : Bytes e.name := by cases e <;> (unfold Bytes; decide)

theorem bytes_dtype (big : Bool) (d : DataType) : Bytes (d.toJson big) := by
  unfold DataType.toJson
  have lit : ∀ s : Str, (∀ x ∈ s, x.toNat < 256) → Bytes s := fun s h => h
  refine bytes_append (bytes_append (bytes_append (bytes_append (lit _ (by decide)) (bytes_typeName _)) (lit _ (by decide))) ?_) (lit _ (by decide))
  split
  · exact bytes_nil
  · repeat' first
      | exact bytes_int _
      | exact bytes_endianName _
      | exact lit _ (by decide)
      | refine bytes_append ?_ ?_

theorem bytes_indent (i dep : Nat) : Bytes (indentText i dep (chars! " ")) := by
  intro x hx
  simp only [indentText, List.mem_flatten, List.mem_replicate] at hx
  obtain ⟨l, ⟨_, rfl⟩, hx⟩ := hx
  simp only [List.mem_flatten, List.mem_replicate] at hx
  obtain ⟨l, ⟨_, rfl⟩, hx⟩ := hx
  simp at hx; subst hx; decide

theorem bytes_sep {α : Type} (l : List α) : Bytes (sepText l) := by
  unfold sepText; split
  · exact bytes_nil
  · unfold Bytes; decide

theorem bytes_eoe : Bytes (chars! "\n") := by unfold Bytes; decide

mutual
theorem bytes_toJson (big : Bool) (i : Nat) : ∀ (s : Schema) (dep : Nat), ByteNames s →
    Bytes (Schema.toJson big i (chars! " ") (chars! "\n") s dep)
  | .leaf d, dep, _ => bytes_dtype big d
  | .obj es, dep, h => by
    rw [Schema.toJson]
    have := bytes_toJsonE big i es (dep + 1) h
    repeat' first
      | exact this
      | exact bytes_eoe
      | exact bytes_indent _ _
      | exact bytes_nil
      | refine bytes_append ?_ ?_
      | refine bytes_cons (by decide) ?_
  | .lst cs, dep, h => by
    rw [Schema.toJson]
    have := bytes_toJsonL big i cs (dep + 1) h
    repeat' first
      | exact this
      | exact bytes_eoe
      | exact bytes_indent _ _
      | exact bytes_nil
      | refine bytes_append ?_ ?_
      | refine bytes_cons (by decide) ?_
theorem bytes_toJsonE (big : Bool) (i : Nat) : ∀ (es : List (Str × Schema)) (dep : Nat), ByteNamesE es →
    Bytes (Schema.toJsonE big i (chars! " ") (chars! "\n") es dep)
  | [], _, _ => bytes_nil
  | (n, c) :: es, dep, h => by
    rw [Schema.toJsonE]
    have h1 : Bytes n := h.1
    have h2 := bytes_toJson big i c dep h.2.1
    have h3 := bytes_toJsonE big i es dep h.2.2
    repeat' first
      | exact h1
      | exact h2
      | exact h3
      | exact bytes_sep es
      | exact bytes_eoe
      | exact bytes_indent _ _
      | exact bytes_nil
      | refine bytes_append ?_ ?_
      | refine bytes_cons (by decide) ?_
theorem bytes_toJsonL (big : Bool) (i : Nat) : ∀ (cs : List Schema) (dep : Nat), ByteNamesL cs →
    Bytes (Schema.toJsonL big i (chars! " ") (chars! "\n") cs dep)
  | [], _, _ => bytes_nil
  | c :: cs, dep, h => by
    rw [Schema.toJsonL]
    have h2 := bytes_toJson big i c dep h.1
    have h3 := bytes_toJsonL big i cs dep h.2
    repeat' first
      | exact h2
      | exact h3
      | exact bytes_sep cs
      | exact bytes_eoe
      | exact bytes_indent _ _
      | refine bytes_append ?_ ?_
end

mutual
theorem byteNames_compactAt : ∀ (s : Schema) (off : Int), ByteNames s → ByteNames (compactAt s off)
  | .leaf d, off, h => by rw [compactAt]; split <;> trivial
  | .obj es, off, h => byteNames_compactAtE es off h
  | .lst cs, off, h => byteNames_compactAtL cs off h
theorem byteNames_compactAtE : ∀ (es : List (Str × Schema)) (off : Int), ByteNamesE es → ByteNamesE (compactAtE es off)
  | [], _, _ => trivial
  | (n, c) :: es, off, h => ⟨h.1, byteNames_compactAt c off h.2.1, byteNames_compactAtE es _ h.2.2⟩
theorem byteNames_compactAtL : ∀ (cs : List Schema) (off : Int), ByteNamesL cs → ByteNamesL (compactAtL cs off)
  | [], _, _ => trivial
  | c :: cs, off, h => ⟨byteNames_compactAt c off h.1, byteNames_compactAtL cs _ h.2⟩
end

theorem char_byte {c : Char} (h : c.toNat < 256) : byteChar (charByte c) = c := by
  unfold byteChar charByte
  rw [UInt8.toNat_ofNat', Nat.mod_eq_of_lt h, Char.ofNat_toNat]

theorem chars_bytes {s : Str} (h : Bytes s) : (s.map charByte).map byteChar = s := by
  induction s with
  | nil => rfl
  | cons c s ih =>
    rw [List.map_cons, List.map_cons, char_byte (h c (by simp)), ih (fun x hx => h x (by simp [hx]))]

theorem charByte_ne {c : Char} (h : c.toNat < 256) (h0 : c ≠ '\x00') : charByte c ≠ 0 := by
  intro he
  apply h0
  rw [← char_byte h, he]
  rfl

/-- the text is read up to the 0 behind it -/
theorem takeWhile_text {t data : List UInt8} (h : 0 ∉ t) : (t ++ 0 :: data).takeWhile (· ≠ 0) = t := by
  rw [List.takeWhile_append_of_pos (by
    intro x hx
    simp only [ne_eq, decide_eq_true_eq]
    rintro rfl; exact h hx)]
  simp

/-! ### the receiver -/

theorem byte_ext (m : Mem) (bs : List UInt8) {b : Nat} (hb : b < m.length) (i : Int) : (m ++ [some bs] : Mem).byte b i = m.byte b i := by
  unfold Mem.byte
  rw [List.getElem?_append_left hb]

theorem live_ext {m : Mem} {bs : List UInt8} {b : Nat} (h : Live m b) : Live (m ++ [some bs]) b := by
  obtain ⟨xs, h⟩ := h
  exact ⟨xs, by rw [List.getElem?_append_left (List.getElem?_eq_some_iff.1 h).1]; exact h⟩

theorem ready_ext {m : Mem} {n : Node} (bs : List UInt8) (h : Ready m n) : Ready (m ++ [some bs]) n :=
  ⟨(readable_agree n (fun _ hb i => byte_ext m bs (blocks_lt n h.readable _ hb) i)).2 h.readable, h.sep, h.nat, h.clean,
    ⟨h.good.1, fun p hp => ⟨(h.good.2 p hp).1, live_ext (h.good.2 p hp).2⟩⟩, h.tidy⟩

theorem recv_message {head text data : List UInt8} {s : Schema} {v : Val} {dest : Node} {m : Mem} (h8 : head.length = 8)
    (h0 : 0 ∉ text) (hs : Gen.parseSchema (text.map byteChar) = .ok s)
    (hv : ∀ (m' : Mem) (p : Ptr), (∀ i : Nat, i < data.length → m'.byteAt (some p) i = data[i]?) →
      view m' (some p) s = v ∧ Readable m' (walk (some p) false s))
    (hd : DistinctV v) (hdest : Ready m dest) (hdd : DistinctV (val m dest)) (hf : Fits v (val m dest)) :
    ∃ m' n', recvUsingSchema (head ++ text ++ 0 :: data) dest m = .ok (m', n') ∧ val m' n' = merge v (val m dest) ∧
      Ready m' n' ∧ Upd m m' dest n' := by
  let bytes := head ++ text ++ 0 :: data
  let p : Ptr := ⟨m.length, 8 + text.length + 1⟩
  let m1 : Mem := m ++ [some bytes]
  let src := walk (some p) false s
  have hdrop : bytes.drop 8 = text ++ 0 :: data := by
    show (head ++ text ++ 0 :: data).drop 8 = _
    rw [List.append_assoc, List.drop_append_of_le_length (by omega), List.drop_eq_nil_of_le (by omega), List.nil_append]
  have hb1 : ∀ i : Nat, m1.byte m.length i = bytes[i]? := by
    intro i
    show (m ++ [some bytes] : Mem).byte m.length i = _
    simp [Mem.byte]
  have hview : view m1 (some p) s = v ∧ Readable m1 (walk (some p) false s) := by
    apply hv
    intro i hi
    show m1.byte m.length (p.off + i) = _
    rw [show p.off + (i : Int) = ((8 + text.length + 1 + i : Nat) : Int) by simp only [p]; omega, hb1]
    show (head ++ text ++ 0 :: data)[_]? = _
    rw [show head ++ text ++ 0 :: data = (head ++ text ++ [0]) ++ data by simp]
    rw [List.getElem?_append_right (by simp; omega)]
    congr 1
    simp only [List.length_append, List.length_cons, List.length_nil]
    omega
  have hval : val m1 src = v := by rw [val_walk]; exact hview.1
  have hr1 : Ready m1 dest := ready_ext bytes hdest
  have hbd : ∀ b ∈ blocks dest, b < m.length := blocks_lt dest hdest.readable
  have hod : ∀ q ∈ owned dest, q.blk < m.length := owned_lt hdest.good
  have hbs : ∀ b ∈ blocks src, b = m.length := blocks_walk p false s
  have hvd : val m1 dest = val m dest := val_agree dest (fun b hb i => byte_ext m bytes (hbd b hb) i)
  have hsrc : SrcOK m1 src dest := ⟨hview.2, fun q hq h => by
      have := hbs _ h; have := hod q hq; omega, fun a ha b hb blk i h1 h2 => by
      have x := hbs _ (has_blocks src a ha blk i h1)
      have y := hbd _ (has_blocks dest b hb blk i h2)
      omega⟩
  obtain ⟨m2, d2, u1, u2, u3, u4⟩ := update_spec src dest m1 hsrc hr1 (by rw [hval, hvd]; exact hf) (by rw [hval]; exact hd)
    (by rw [hvd]; exact hdd)
  have hl1 : m1.length = m.length + 1 := by simp [m1]
  have hlive : Live m2 m.length := u2.live m.length (by omega) (by
    intro h
    obtain ⟨q, hq, he⟩ := List.mem_map.1 h
    have := hod q hq; omega) ⟨bytes, by simp [m1]⟩
  have hfree : m2.free ⟨m.length, 0⟩ = .ok (m2.set m.length none) := free_ok rfl hlive
  have hbyte : ∀ b i, b ≠ m.length → Mem.byte (m2.set m.length none) b i = m2.byte b i := by
    intro b i hb
    rw [Mem.byte_free hfree]
    simp [hb]
  have hb2 : ∀ b ∈ blocks d2, b ≠ m.length := by
    intro b hb
    rcases u2.blk b hb with h | h
    · have := hbd b h; omega
    · omega
  have ag : Agree m2 (m2.set m.length none) (blocks d2) := fun b hb i => hbyte b i (hb2 b hb)
  refine ⟨m2.set m.length none, d2, ?_, ?_, ?_, ?_⟩
  · unfold recvUsingSchema
    rw [if_neg (by
      rw [show head ++ text ++ 0 :: data = bytes from rfl, hdrop]
      simp only [List.mem_append, List.mem_cons, true_or, or_true, not_true, or_false]
      show ¬ (head ++ text ++ 0 :: data).length < 8
      simp only [List.length_append]; omega)]
    simp only
    rw [show head ++ text ++ 0 :: data = bytes from rfl, hdrop, takeWhile_text h0, hs, bind_ok, u1, bind_ok, hfree, bind_ok]
  · rw [val_agree d2 ag, u4, hval, hvd]
  · refine ⟨(readable_agree d2 ag).2 u3.readable, u3.sep, u3.nat, u3.clean, ⟨u3.good.1, fun q hq => ⟨(u3.good.2 q hq).1, ?_⟩⟩, u3.tidy⟩
    have hne : q.blk ≠ m.length := by
      rcases u2.own q hq with h | h
      · have := hod q h; omega
      · omega
    obtain ⟨xs, hx⟩ := (u3.good.2 q hq).2
    exact ⟨xs, by rw [List.getElem?_set_ne (Ne.symm hne)]; exact hx⟩
  · have hlen := u2.len
    refine ⟨by rw [List.length_set]; omega, fun b i hb ho hp => ?_, fun b hb ho hlv => ?_, fun q hq => (u2.own q hq).imp id (by omega),
      fun b hb => (u2.blk b hb).imp id (by omega), fun pl hpl => (u2.plc pl hpl).imp id (fun h b i hh => by have := h b i hh; omega)⟩
    · rw [hbyte b i (by omega), u2.keep b i (by omega) ho hp]
      exact byte_ext m bytes hb i
    · obtain ⟨xs, hx⟩ := hlv
      obtain ⟨ys, hy⟩ := u2.live b (by omega) ho ⟨xs, by show (m ++ [some bytes] : Mem)[b]? = _; rw [List.getElem?_append_left hb]; exact hx⟩
      exact ⟨ys, by rw [List.getElem?_set_ne (by omega)]; exact hy⟩

/-! ### merging into an empty node -/

mutual
/-- an empty leaf has no elements and no byte order -/
def Proper : Val → Prop
  | .leaf id e es => id = .empty → e = .default ∧ es = []
  | .obj es => ProperE es
  | .lst cs => ProperL cs
def ProperE : List (Str × Val) → Prop
  | [] => True
  | (_, c) :: es => Proper c ∧ ProperE es
def ProperL : List Val → Prop
  | [] => True
  | c :: cs => Proper c ∧ ProperL cs
end

mutual
theorem proper_named (big : Bool) (m : Mem) : ∀ n : Node, Proper (named big (val m n))
  | .leaf x d => by
    rw [val]
    split
    · simp [named, Proper]
    · rename_i h; simp [named, Proper, h]
  | .obj x es => proper_namedE big m es
  | .lst x cs => proper_namedL big m cs
theorem proper_namedE (big : Bool) (m : Mem) : ∀ es : List (Str × Node), ProperE (namedE big (valE m es))
  | [] => trivial
  | (_, c) :: es => ⟨proper_named big m c, proper_namedE big m es⟩
theorem proper_namedL (big : Bool) (m : Mem) : ∀ cs : List Node, ProperL (namedL big (valL m cs))
  | [] => trivial
  | c :: cs => ⟨proper_named big m c, proper_namedL big m cs⟩
end

mutual
theorem full_named (big : Bool) : ∀ v : Val, Full v → Full (named big v)
  | .leaf id e es, _ => by rw [named]; split <;> trivial
  | .obj es, h => ⟨by cases es with
      | nil => exact absurd rfl h.1
      | cons a es => obtain ⟨n, c⟩ := a; simp [namedE], full_namedE big es h.2⟩
  | .lst cs, h => ⟨by cases cs with
      | nil => exact absurd rfl h.1
      | cons a es => simp [namedL], full_namedL big cs h.2⟩
theorem full_namedE (big : Bool) : ∀ v : List (Str × Val), FullE v → FullE (namedE big v)
  | [], _ => trivial
  | (_, c) :: es, h => ⟨full_named big c h.1, full_namedE big es h.2⟩
theorem full_namedL (big : Bool) : ∀ v : List Val, FullL v → FullL (namedL big v)
  | [], _ => trivial
  | c :: es, h => ⟨full_named big c h.1, full_namedL big es h.2⟩
end

theorem names_namedE (big : Bool) : ∀ es : List (Str × Val), (namedE big es).map Prod.fst = es.map Prod.fst
  | [] => rfl
  | (n, c) :: es => by simp [namedE, names_namedE big es]

mutual
theorem distinct_named (big : Bool) : ∀ v : Val, DistinctV v → DistinctV (named big v)
  | .leaf id e es, _ => by rw [named]; split <;> trivial
  | .obj es, h => ⟨by rw [names_namedE]; exact h.1, distinct_namedE big es h.2⟩
  | .lst cs, h => distinct_namedL big cs h
theorem distinct_namedE (big : Bool) : ∀ v : List (Str × Val), DistinctVE v → DistinctVE (namedE big v)
  | [], _ => trivial
  | (_, c) :: es, h => ⟨distinct_named big c h.1, distinct_namedE big es h.2⟩
theorem distinct_namedL (big : Bool) : ∀ v : List Val, DistinctVL v → DistinctVL (namedL big v)
  | [], _ => trivial
  | c :: es, h => ⟨distinct_named big c h.1, distinct_namedL big es h.2⟩
end

mutual
theorem merge_empty : ∀ v : Val, Full v → Proper v → DistinctV v → merge v emptyV = v
  | .leaf id e es, _, hp, _ => by
    by_cases h : id = .empty
    · obtain ⟨rfl, rfl⟩ := hp h
      subst h
      rw [merge, if_pos rfl]; rfl
    · rw [merge, if_neg h]
      simp only [emptyV, overLeaf]
      rw [if_neg (by rintro ⟨h', _⟩; exact h h'.symm)]
  | .obj es, hf, hp, hd => by
    rw [merge, if_neg (by simpa using hf.1)]
    have := merge_emptyE es [] hf.2 hp hd.1 (by simp) hd.2
    rw [show entries emptyV = [] from rfl, this, List.nil_append]
  | .lst cs, hf, hp, hd => by
    rw [merge, if_neg (by simpa using hf.1)]
    rw [show items emptyV = [] from rfl, merge_emptyL cs hf.2 hp hd]
theorem merge_emptyE : ∀ (es A : List (Str × Val)), FullE es → ProperE es → (es.map Prod.fst).Nodup →
    (∀ n ∈ es.map Prod.fst, n ∉ A.map Prod.fst) → DistinctVE es → mergeE es A = A ++ es
  | [], A, _, _, _, _, _ => by simp [mergeE]
  | (n, c) :: es, A, hf, hp, hn, hA, hd => by
    simp only [List.map_cons, List.nodup_cons] at hn
    rw [mergeE, upsert_new (hA n (by simp)), merge_empty c hf.1 hp.1 hd.1]
    rw [merge_emptyE es (A ++ [(n, c)]) hf.2 hp.2 hn.2 (fun k hk => by
      simp only [List.map_append, List.map_cons, List.map_nil, List.mem_append, List.mem_singleton, not_or]
      exact ⟨hA k (by simp [hk]), fun he => hn.1 (he ▸ hk)⟩) hd.2]
    simp
theorem merge_emptyL : ∀ cs : List Val, FullL cs → ProperL cs → DistinctVL cs → mergeL cs [] = cs
  | [], _, _, _ => rfl
  | c :: cs, hf, hp, hd => by
    rw [mergeL, merge_empty c hf.1 hp.1 hd.1, merge_emptyL cs hf.2 hp.2 hd.2]
end

/-! ### both ends -/

mutual
theorem distinct_val (m : Mem) : ∀ n : Node, NamesOK n.schema → DistinctV (val m n)
  | .leaf x d, _ => by rw [val]; split <;> trivial
  | .obj x es, h => ⟨by
      have := h.1
      rw [show (schemaE es).map (·.1) = es.map Prod.fst from names_schemaE' es] at this
      rw [names_valE]; exact this, distinct_valE m es h.2⟩
  | .lst x cs, h => distinct_valL m cs h
theorem distinct_valE (m : Mem) : ∀ es : List (Str × Node), NamesOKE (schemaE es) → DistinctVE (valE m es)
  | [], _ => trivial
  | (_, c) :: es, h => ⟨distinct_val m c h.2.2.1, distinct_valE m es h.2.2.2⟩
theorem distinct_valL (m : Mem) : ∀ es : List Node, NamesOKL (schemaL es) → DistinctVL (valL m es)
  | [], _ => trivial
  | c :: es, h => ⟨distinct_val m c h.1, distinct_valL m es h.2⟩
end

mutual
theorem readable_readBack {m : Mem} {p : Option Ptr} (big : Bool) : ∀ (s : Schema) (al : Bool) (off : Int), Readable m (walk p al s) →
    Readable m (walk p al (readBack big s off))
  | .leaf d, al, off, h => by
    rw [readBack]
    split
    · exact ⟨by simp, by simp, by simp, fun h => absurd rfl h⟩
    · exact h
  | .obj es, al, off, h => readable_readBackE big es off h
  | .lst cs, al, off, h => readable_readBackL big cs off h
theorem readable_readBackE {m : Mem} {p : Option Ptr} (big : Bool) : ∀ (es : List (Str × Schema)) (off : Int), ReadableE m (walkE p es) →
    ReadableE m (walkE p (readBackE big es off))
  | [], _, _ => trivial
  | (_, c) :: es, off, h => ⟨readable_readBack big c false off h.1, readable_readBackE big es _ h.2⟩
theorem readable_readBackL {m : Mem} {p : Option Ptr} (big : Bool) : ∀ (es : List Schema) (off : Int), ReadableL m (walkL p es) →
    ReadableL m (walkL p (readBackL big es off))
  | [], _, _ => trivial
  | c :: es, off, h => ⟨readable_readBack big c false off h.1, readable_readBackL big es _ h.2⟩
end

/-- both ends, for a tree whose schema is sent in its compacted form -/
theorem send_recv {base : Nat → Int} {big : Bool} {n : Node} {m : Mem} (hr : Readable m n) (hn : NamesOK n.schema)
    (hb : ByteNames n.schema) (hs : sentSchema base n = n.schema.compactTo)
    (hsize : (9 + (schemaText big n.schema.compactTo).length : Int) + totalBytesCompact n.schema < 2 ^ 31) :
    ∃ msg, sendUsingSchema base big n m = .ok msg ∧
      ∀ (dest : Node) (m2 : Mem), Ready m2 dest → DistinctV (val m2 dest) → Fits (named big (val m n)) (val m2 dest) →
        ∃ m3 n3, recvUsingSchema msg dest m2 = .ok (m3, n3) ∧ val m3 n3 = merge (named big (val m n)) (val m2 dest) ∧ Ready m3 n3 ∧
          Upd m2 m3 dest n3 := by
  have hc := countsOK_of hr
  have hdist := distinct_val m n hn
  let text := (schemaText big n.schema.compactTo).map charByte
  obtain ⟨data, d1, d2⟩ := send_message base big n m text (by rw [hs]) hr hdist
  have hdl : (data.length : Int) = totalBytesCompact n.schema :=
    (view_flat n m hr data d1 [some data] (some ⟨0, 0⟩) (by
      intro i hi; simp [Mem.byteAt, Mem.byte])).2
  have hl : text.length = (schemaText big n.schema.compactTo).length := by simp [text]
  rw [mpiSend_all (by simp [machineBytes_length, IntTy.size]; omega) (by simp [machineBytes_length, IntTy.size]; omega)] at d2
  refine ⟨_, d2, ?_⟩
  intro dest m2 hready hdd hf
  have hp : Printable n.schema.compactTo :=
    printable_compactAt n.schema 0 hn hc (readable_ids n hr) (Int.le_refl 0) (by omega)
  have hws : WS (chars! " ") ∧ WS (chars! "\n") := by unfold WS; decide
  have hbytes : Bytes (schemaText big n.schema.compactTo) := bytes_toJson big 2 _ 0 (byteNames_compactAt _ _ hb)
  have h0 : 0 ∉ text := by
    intro h
    obtain ⟨c, hcm, he⟩ := List.mem_map.1 h
    refine charByte_ne (hbytes c hcm) ?_ he
    rintro rfl
    exact (plain_toJson big 2 (chars! " ") (chars! "\n") hws.1 hws.2 _ 0 hp).no_nul hcm
  refine recv_message (machineBytes_length _ _ _) h0 (s := readBack big n.schema.compactTo 0) ?_ ?_ (distinct_named big _ hdist) hready hdd hf
  · rw [chars_bytes hbytes]
    exact parseSchema_read big 2 _ _ hws.1 hws.2 _ 0 hp
  · intro m' p h
    have hv := (view_flat n m hr data d1 m' (some p) h).1
    refine ⟨by rw [view_readBack, hv], readable_readBack big _ _ _ ?_⟩
    exact readable_of_val _ n (by
      rw [schema_walk]; exact leavesOK_compactAt _ _ (readable_leaves n hr)) (by rw [val_walk]; exact hv) hr

end Relay
end Conduit
