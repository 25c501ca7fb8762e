import Verif.Journal.Lemmas
/-! Properties C38 (number coding) and C39 (parsing, torn journals). -/
namespace WG

/-- C38: every 64-bit number is read back unchanged, consuming exactly the bytes written, whatever
follows. -/
theorem C38_varint_roundtrip (v : Word) (rest : List Byte) :
    getVarint (encVarint v ++ rest) = some (v, rest) := getVarint_enc v rest

/-- C38: the coding takes between one and nine bytes, the size of the buffers it is written to
(`VARINT_SIZE`, Db/dblog.c line 103), and one byte for numbers below 128. -/
theorem C38_varint_size (v : Word) : 1 ≤ (encVarint v).length ∧ (encVarint v).length ≤ 9 := by
  unfold encVarint
  simp only
  repeat' split
  all_goals simp

/-- C38: a number cut short at any byte is reported as an error. -/
theorem C38_varint_torn (v : Word) (k : Nat) (hk : k < (encVarint v).length) :
    getVarint ((encVarint v).take k) = none := by
  cases h : getVarint ((encVarint v).take k) with
  | none => rfl
  | some x =>
    obtain ⟨a, r⟩ := x
    have h1 := getVarint_ext _ ((encVarint v).drop k) _ _ h
    rw [List.take_append_drop] at h1
    have h2 := getVarint_enc v []
    rw [List.append_nil, h1] at h2
    simp only [Option.some.injEq, Prod.mk.injEq, List.append_eq_nil_iff, List.drop_eq_nil_iff] at h2
    omega

example : encVarint 300#64 = [0xac#8, 0x02#8] ∧ (encVarint (BitVec.allOnes 64)).length = 9 := by decide

/-- C39: a journal written by operations other than encoding of 64-bit integers or of new strings with
extra data is read back as exactly those operations, ending normally. -/
theorem C39_parse_partial (ops : List LogOp) (hp : ∀ op ∈ ops, op.Plain) :
    readJournal (journalOf ops) = (ops.map LogOp.entry, true) := by
  obtain ⟨n, h1, h2, h3, h4⟩ := readLoop_take ops hp (journalOf ops).length (journalOf ops).length
    (Nat.le_refl _) (Nat.le_refl _)
  rw [List.take_length] at h2
  have hn : n = ops.length := by
    by_cases h : n < ops.length
    · have hle : (journalOf (ops.take (n+1))).length ≤ (journalOf ops).length := by
        have : journalOf ops = journalOf (ops.take (n+1)) ++ journalOf (ops.drop (n+1)) := by
          unfold journalOf
          rw [← List.flatten_append, ← List.map_append, List.take_append_drop]
        rw [this]; simp
      have := h4 h
      omega
    · omega
  subst hn
  rw [List.take_length] at h2
  unfold readJournal
  rw [h2]; simp

/-- C39: cutting such a journal at any byte `k`: reading yields exactly the longest sequence of complete
operations within the first `k` bytes, and ends normally iff the cut is at an operation boundary. -/
theorem C39_torn_partial (ops : List LogOp) (hp : ∀ op ∈ ops, op.Plain) (k : Nat)
    (hk : k ≤ (journalOf ops).length) :
    ∃ n, n ≤ ops.length ∧ (journalOf (ops.take n)).length ≤ k ∧
      (n < ops.length → k < (journalOf (ops.take (n+1))).length) ∧
      readJournal ((journalOf ops).take k) =
        ((ops.take n).map LogOp.entry, decide ((journalOf (ops.take n)).length = k)) := by
  obtain ⟨n, h1, h2, h3, h4⟩ := readLoop_take ops hp k k hk (Nat.le_refl _)
  refine ⟨n, h1, h3, h4, ?_⟩
  unfold readJournal
  have : ((journalOf ops).take k).length = k := by simp; omega
  rw [this, h2]

example : (∀ op ∈ [LogOp.create 3#64 4096#64, .encStr 5#8 [97#8, 98#8] [] none 9001#64,
      .set 4096#64 1#64 9001#64, .delete 4096#64], op.Plain) ∧
    readJournal ((journalOf [LogOp.create 3#64 4096#64, .encStr 5#8 [97#8, 98#8] [] none 9001#64,
      .set 4096#64 1#64 9001#64]).take 9) = ([.cre 3#64 4096#64], false) := by
  constructor
  · intro op h
    simp only [List.mem_cons, List.not_mem_nil, or_false] at h
    rcases h with rfl|rfl|rfl|rfl <;> simp [LogOp.Plain, isStrType]
  · decide

/-- Missing from C39: an integer that does not fit inline and whose low 32 bits are small is logged without
an entry header (Db/dblog.c line 1080 reads the 64-bit argument as an `int`), and its result is misread as
a command: here the encoded value 0x2001 is read as the deletion of the record at offset 64. -/
theorem C39_bigint_counterexample :
    let ops := [LogOp.encInt 0x1000000000000000#64 0x2001#64, .create 2#64 4096#64]
    readJournal (journalOf ops) = ([.del 64#64, .cre 2#64 4096#64], true) := by
  decide

/-- Missing from C39: whatever the integer, the value recovered from the journal is not the value encoded. -/
theorem C39_bigint_truncated (v : Word) (h : fitsSmallint v = false) :
    (v.setWidth 32).signExtend 64 ≠ v := by
  intro he
  have : fitsSmallint v = true := by
    unfold fitsSmallint
    rw [beq_iff_eq]
    apply BitVec.eq_of_toInt_eq
    have h1 : v.toInt = (v.setWidth 32).toInt := by
      rw [← BitVec.toInt_signExtend_of_le (v := 64) (x := v.setWidth 32) (by omega), he]
    have hb := BitVec.toInt_lt (x := v.setWidth 32)
    have hb2 := BitVec.le_toInt (x := v.setWidth 32)
    rw [BitVec.toInt_sshiftRight, BitVec.toInt_shiftLeft]
    rw [← h1] at hb hb2
    have e : v.toNat <<< 3 = 8 * v.toNat := by rw [Nat.shiftLeft_eq]; omega
    rw [Int.shiftRight_eq_div_pow]
    have hm : ((v.toNat <<< 3 : Nat) : Int).bmod (2^64) = (8 * v.toInt).bmod (2^64) := by
      rw [e]
      rw [BitVec.toInt_eq_toNat_bmod]
      push_cast
      rw [Int.mul_bmod_bmod]
    rw [hm, Int.bmod_eq_of_le]
    · omega
    · simp at hb2 ⊢; omega
    · simp at hb ⊢; omega
  rw [this] at h; cases h

/-- Missing from C39: encoding a string with extra data (URI prefix, language) that is not stored yet
writes the log entry of the extra string between the outer entry and its result, so the journal is misread:
here creating the record and setting its field are lost. -/
theorem C39_nested_counterexample :
    let ops := [LogOp.create 1#64 4096#64, .encStr 7#8 [97#8] [120#8] (some 8195#64) 9004#64,
      .set 4096#64 0#64 9004#64]
    (readJournal (journalOf ops)).2 = false ∧ .set 4096#64 0#64 9004#64 ∉ (readJournal (journalOf ops)).1 := by
  decide

end WG
