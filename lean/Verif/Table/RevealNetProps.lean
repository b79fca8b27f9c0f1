import Verif.Table.RevealNet
import Verif.Table.Props
/-!
# C80: a table revealed over the network
-/
namespace SecJoin
namespace Table

theorem splitRows_flatten {c : Nat} : ∀ {x : List Row}, (∀ r ∈ x, r.length = c) → splitRows c x.length x.flatten = x
  | [], _ => rfl
  | r :: x, h => by
    have hr := h r (by simp)
    show ((r :: x).flatten.take c) :: splitRows c x.length ((r :: x).flatten.drop c) = _
    rw [List.flatten_cons, ← hr, List.take_left, List.drop_left, hr, splitRows_flatten (fun y hy => h y (by simp [hy]))]

theorem splitRows_length (c : Nat) : ∀ (k : Nat) (m : List Byte), (splitRows c k m).length = k
  | 0, _ => rfl
  | k + 1, m => by simp [splitRows, splitRows_length c k]

theorem recvMsg_ok {m : List Byte} {ms : List (List Byte)} {size : Nat} (h : m.length = size) : recvMsg size (m :: ms) = .ok (m, ms) := by
  simp only [recvMsg]
  rw [h, bne_self_eq_false]; rfl

/-- Columns of the same widths arrive as they were sent. -/
theorem recvCols_ok {n : Nat} : ∀ {cols : List Column} (_ : ∀ c ∈ cols, c.WF n) (infos : List ColumnInfo) (_ : cols.map (·.info.bits) = infos.map (·.bits))
    (ch : List (List Byte)), recvCols (infos.map fun i => (⟨i, BinMatrix.zero n i.bits⟩ : Column)) (cols.map (·.data.rows.flatten) ++ ch) =
      .ok (List.zipWith (fun i (c : Column) => ⟨i, c.data⟩) infos cols, ch)
  | [], _, [], _, ch => rfl
  | [], _, _ :: _, h, _ => by cases h
  | _ :: _, _, [], h, _ => by cases h
  | c :: cols, hw, i :: infos, h, ch => by
    obtain ⟨h1, h2⟩ := List.cons.inj h
    have w := hw c (by simp)
    have hl : (BinMatrix.zero n i.bits).rows.length = n := by simp [BinMatrix.zero]
    have hc : (BinMatrix.zero n i.bits).cols = divCeil c.info.bits 8 := by simp [BinMatrix.zero, h1]
    have hb : (BinMatrix.zero n i.bits).bits = c.info.bits := by simp [BinMatrix.zero, h1]
    have hf : c.data.rows.flatten.length = n * divCeil c.info.bits 8 := by rw [flatten_length w.shape]
    simp only [List.map_cons, List.cons_append, recvCols]
    rw [hl, hc, recvMsg_ok hf, ok_bind]
    simp only []
    rw [recvCols_ok (fun x hx => hw x (by simp [hx])) infos h2 ch, ok_bind]
    simp only [List.zipWith_cons_cons]
    congr 3
    rw [hb]
    have := splitRows_flatten w.shape.2
    rw [w.shape.1] at this
    rw [this]
    show Column.mk i ⟨_, _, _⟩ = Column.mk i ⟨c.data.bits, c.data.cols, c.data.rows⟩
    rw [w.bits, w.cols]

theorem init_own {t : Table} {n : Nat} (h : t.WF n) : init t.rows t.getColumnInfo = .ok ⟨[], t.getColumnInfo.map fun i => ⟨i, BinMatrix.zero n i.bits⟩⟩ := by
  rw [h.rows_eq]
  unfold init
  rw [initLoop_ok]
  · rfl
  · have := h.names
    unfold getColumnInfo
    rw [List.map_map]; exact this
  · simp
  · intro i hi
    obtain ⟨c, hc, rfl⟩ := List.mem_map.mp hi
    exact (h.col c hc).str

theorem zipWith_infos {infos : List ColumnInfo} {cols : List Column} (h : cols.map (·.info) = infos) :
    List.zipWith (fun i (c : Column) => (⟨i, c.data⟩ : Column)) infos cols = cols := by
  subst h
  rw [List.zipWith_map_left, List.zipWith_self]
  simp

/-- **C80.** The receiver gets the table that both shares hold together, and the rest of the channel is as it was. What is missing: shares
with flags on one side only and shares of another shape but the same size are not refused (`C80_flags_left_false`,
`C80_flags_wait_false`, `C80_flags_taken_false`, `C80_shape_false`). -/
theorem C80_reveal_partial {n : Nat} {t0 t1 : Table} (h0 : t0.WF n) (h1 : t1.WF n) (hi : t0.getColumnInfo = t1.getColumnInfo)
    (hf : t0.isActive.length = t1.isActive.length) (rest : List (List Byte)) :
    revealLocal t0 (revealRemote t1 ++ rest) = .ok (joined t0 t1 n, rest) := by
  have hf' : t0.isActive = [] ∨ t1.isActive.length = n := by
    rcases h0.flags with h | h
    · exact Or.inl h
    · exact Or.inr (by omega)
  unfold revealLocal revealRemote
  rw [init_own h0, ok_bind]
  simp only [List.append_assoc]
  rw [recvCols_ok h1.col t0.getColumnInfo (by rw [hi]; simp [getColumnInfo]), ok_bind, zipWith_infos hi.symm]
  simp only []
  have hfl : (if t0.isActive.length > 0 then recvMsg t0.isActive.length ((if t1.isActive.length > 0 then [t1.isActive] else []) ++ rest)
      else .ok ([], (if t1.isActive.length > 0 then [t1.isActive] else []) ++ rest)) = .ok (t1.isActive, rest) := by
    by_cases h : t0.isActive.length > 0
    · rw [if_pos h, if_pos (by omega), List.singleton_append, recvMsg_ok hf.symm]
    · have : t1.isActive = [] := List.length_eq_zero_iff.mp (by omega)
      rw [if_neg h, if_neg (by omega), this]; rfl
  rw [hfl, ok_bind, joined_eq h0 h1 hi hf', (reveal_ok h0 h1 hi hf').2]
  rfl

theorem joined_comm {n : Nat} {t0 t1 : Table} (hi : t0.getColumnInfo = t1.getColumnInfo) (hf : t0.isActive.length = t1.isActive.length) :
    joined t1 t0 n = joined t0 t1 n := by
  have hl : t0.cols.length = t1.cols.length := by simpa [getColumnInfo] using congrArg List.length hi
  unfold joined
  congr 1
  · rw [hf]
    by_cases h : t1.isActive.length = 0
    · rw [if_pos h, if_pos h]
    · rw [if_neg h, if_neg h]
      apply List.map_congr_left
      intro i _
      rw [BitVec.xor_comm]
  · apply List.ext_getElem
    · simp [hl]
    · intro i h2 h3
      simp only [List.length_zipWith, Nat.lt_min] at h3
      have he : t0.cols[i].info = t1.cols[i].info := by
        have := congrArg (fun x => x[i]?) hi
        simpa [getColumnInfo, h3.1, h3.2] using this
      simp only [List.getElem_zipWith]
      rw [he]
      congr 2
      apply List.map_congr_left
      intro r _
      apply List.map_congr_left
      intro j _
      rw [BitVec.xor_comm]

/-- A shared table revealed over the network is the table; without flags it comes back with all flags one. -/
theorem C80_shared {t : Table} {n : Nat} (ht : t.WF n) (hcl : t.Clean n) (rnd : Nat → Nat → Nat → Byte) (rndF : Nat → Byte) (rest : List (List Byte)) :
    ∃ s0 s1, share rnd rndF t = .ok (s0, s1) ∧
      revealLocal s0 (revealRemote s1 ++ rest) = .ok (⟨if t.isActive = [] then List.replicate n 1 else t.isActive, t.cols⟩, rest) ∧
      revealLocal s1 (revealRemote s0 ++ rest) = .ok (⟨if t.isActive = [] then List.replicate n 1 else t.isActive, t.cols⟩, rest) := by
  obtain ⟨s0, s1, e, w0, w1, -, -, i0, i1, l0, -, er⟩ := C09_table ht hcl rnd rndF
  have l1 : s1.isActive.length = t.isActive.length := by
    simp only [share] at e
    cases hs : shareCols rnd 0 t.cols with
    | error x => rw [hs] at e; cases e
    | ok c =>
      rw [hs] at e
      injection e with e
      have h2 : _ = s1 := congrArg Prod.snd e
      rw [← h2]
      simp
  have hi : s0.getColumnInfo = s1.getColumnInfo := by rw [i0, i1]
  have hf : s0.isActive.length = s1.isActive.length := by rw [l0, l1]
  have hf' : s0.isActive = [] ∨ s1.isActive.length = n := by
    rcases w0.flags with h | h
    · exact Or.inl h
    · exact Or.inr (by omega)
  have hj : joined s0 s1 n = ⟨if t.isActive = [] then List.replicate n 1 else t.isActive, t.cols⟩ := by
    rw [(reveal_ok w0 w1 hi hf').2, ← joined_eq w0 w1 hi hf'] at er
    injection er
  refine ⟨s0, s1, e, ?_, ?_⟩
  · rw [C80_reveal_partial w0 w1 hi hf, hj]
  · rw [C80_reveal_partial w1 w0 hi.symm hf.symm, joined_comm hi hf, hj]

/-- Two shares of a table of three rows with two columns and flags. -/
def exN0 : Table := ⟨[1, 0, 3], [⟨⟨[97], .int, 8⟩, ⟨8, 1, [[1], [2], [3]]⟩⟩, ⟨⟨[98], .int, 12⟩, ⟨12, 2, [[1, 2], [3, 4], [5, 6]]⟩⟩]⟩
def exN1 : Table := ⟨[1, 1, 2], [⟨⟨[97], .int, 8⟩, ⟨8, 1, [[9], [9], [0]]⟩⟩, ⟨⟨[98], .int, 12⟩, ⟨12, 2, [[0, 0], [3, 1], [4, 4]]⟩⟩]⟩

theorem exN_wf : exN0.WF 3 ∧ exN1.WF 3 ∧ exN0.getColumnInfo = exN1.getColumnInfo ∧ exN0.isActive.length = exN1.isActive.length := by
  refine ⟨⟨?_, by decide, by decide, Or.inr rfl⟩, ⟨?_, by decide, by decide, Or.inr rfl⟩, by decide, rfl⟩ <;>
  · intro c hc
    rcases List.mem_cons.mp hc with rfl | hc
    · exact ⟨rfl, rfl, by decide, by decide⟩
    · rw [List.mem_singleton] at hc; subst hc
      exact ⟨rfl, rfl, by decide, by decide⟩

example : revealLocal exN0 (revealRemote exN1 ++ [[7]]) = .ok (⟨[0, 1, 1], [⟨⟨[97], .int, 8⟩, ⟨8, 1, [[8], [11], [3]]⟩⟩,
    ⟨⟨[98], .int, 12⟩, ⟨12, 2, [[1, 2], [0, 5], [1, 2]]⟩⟩]⟩, [[7]]) := by
  obtain ⟨a, b, c, d⟩ := exN_wf
  rw [C80_reveal_partial a b c d]; decide

/-- Several reveals one after the other do not disturb each other. -/
theorem C80_sequence {ts : List (Nat × Table × Table)} (h : ∀ x ∈ ts, x.2.1.WF x.1 ∧ x.2.2.WF x.1 ∧ x.2.1.getColumnInfo = x.2.2.getColumnInfo ∧
      x.2.1.isActive.length = x.2.2.isActive.length) (rest : List (List Byte)) :
    revealLocals (ts.map (·.2.1)) (revealRemotes (ts.map (·.2.2)) ++ rest) = .ok (ts.map fun x => joined x.2.1 x.2.2 x.1, rest) := by
  induction ts with
  | nil => rfl
  | cons x ts ih =>
    obtain ⟨a, b, c, d⟩ := h x (by simp)
    have ih := ih fun y hy => h y (by simp [hy])
    unfold revealRemotes at ih ⊢
    simp only [List.map_cons, List.flatMap_cons, List.append_assoc, revealLocals]
    rw [C80_reveal_partial a b c d, ok_bind]
    simp only []
    rw [ih, ok_bind]

/-- A share with another number of rows is refused, if the columns have bytes. -/
theorem C80_rows_refused {n m : Nat} {t0 t1 : Table} (h0 : t0.WF n) (h1 : t1.WF m) (hi : t0.getColumnInfo = t1.getColumnInfo) (hnm : n ≠ m)
    (hc : ∀ c ∈ t0.cols, 0 < c.info.bits) (hne : t0.cols ≠ []) (rest : List (List Byte)) :
    revealLocal t0 (revealRemote t1 ++ rest) = .error .throw := by
  cases ec0 : t0.cols with
  | nil => exact absurd ec0 hne
  | cons c0 cs0 =>
    cases ec1 : t1.cols with
    | nil => simp [getColumnInfo, ec0, ec1] at hi
    | cons c1 cs1 =>
      have hinfo : c0.info = c1.info := by
        have := hi
        simp only [getColumnInfo, ec0, ec1, List.map_cons, List.cons.injEq] at this
        exact this.1
      have w1 := h1.col c1 (by rw [ec1]; simp)
      have hpos := hc c0 (by rw [ec0]; simp)
      unfold revealLocal revealRemote
      rw [init_own h0, ok_bind]
      simp only [getColumnInfo, ec0, ec1, List.map_cons, List.cons_append, recvCols]
      have hl : (c1.data.rows.flatten.length != (BinMatrix.zero n c0.info.bits).rows.length * (BinMatrix.zero n c0.info.bits).cols) = true := by
        rw [flatten_length w1.shape, ← hinfo]
        simp only [BinMatrix.zero, List.length_replicate, bne_iff_ne, ne_eq]
        intro h
        have : 0 < divCeil c0.info.bits 8 := by unfold divCeil; omega
        exact hnm (Nat.eq_of_mul_eq_mul_right this h).symm
      simp only [recvMsg]
      rw [hl]; rfl

/-- **C80 is false for flags on one side, first case**: if only the sender's share has flags, the reveal ends and the flags stay in the
channel, where the next protocol reads them. -/
theorem C80_flags_left_false {n : Nat} {t0 t1 : Table} (h0 : t0.WF n) (h1 : t1.WF n) (hi : t0.getColumnInfo = t1.getColumnInfo)
    (h : t0.isActive = []) (h' : t1.isActive ≠ []) (rest : List (List Byte)) :
    revealLocal t0 (revealRemote t1 ++ rest) = .ok (joined t0 t1 n, t1.isActive :: rest) := by
  unfold revealLocal revealRemote
  rw [init_own h0, ok_bind]
  simp only [List.append_assoc]
  rw [recvCols_ok h1.col t0.getColumnInfo (by rw [hi]; simp [getColumnInfo]), ok_bind, zipWith_infos hi.symm]
  simp only []
  have hp : t1.isActive.length > 0 := List.length_pos_iff.mpr h'
  rw [if_neg (by rw [h]; simp), if_pos hp, ok_bind]
  have w : (⟨[], t1.cols⟩ : Table).WF n := ⟨h1.col, h1.names, h1.empty, Or.inl rfl⟩
  simp only []
  rw [(reveal_ok h0 w hi (Or.inl h)).2, joined_eq h0 h1 hi (Or.inl h)]
  show Except.ok (_, _) = _
  congr 2
  simp [xflags, xcols, h]

/-- **Second case**: if only the receiver's share has flags, it waits for a message that is never sent. -/
theorem C80_flags_wait_false {n : Nat} {t0 t1 : Table} (h0 : t0.WF n) (h1 : t1.WF n) (hi : t0.getColumnInfo = t1.getColumnInfo)
    (h : t0.isActive ≠ []) (h' : t1.isActive = []) : revealLocal t0 (revealRemote t1) = .error .diverge := by
  unfold revealLocal revealRemote
  rw [init_own h0, ok_bind]
  simp only []
  rw [recvCols_ok h1.col t0.getColumnInfo (by rw [hi]; simp [getColumnInfo]), ok_bind]
  simp only []
  rw [if_pos (List.length_pos_iff.mpr h), h']
  rfl

/-- and if there is a later message of the same length, it is taken for the flags: the receiver's flags are XORed with it. -/
theorem C80_flags_taken_false {n : Nat} {t0 t1 : Table} (h0 : t0.WF n) (h1 : t1.WF n) (hi : t0.getColumnInfo = t1.getColumnInfo)
    (h : t0.isActive ≠ []) (h' : t1.isActive = []) {m : List Byte} (hm : m.length = n) (rest : List (List Byte)) :
    revealLocal t0 (revealRemote t1 ++ m :: rest) = .ok (joined t0 ⟨m, t1.cols⟩ n, rest) := by
  have hl : t0.isActive.length = n := h0.flags.resolve_left h
  have := C80_reveal_partial (t1 := ⟨m, t1.cols⟩) h0 ⟨h1.col, h1.names, h1.empty, Or.inr hm⟩ hi (by rw [hl, hm]) rest
  rw [← this]
  congr 1
  have hp : m.length > 0 := by rw [hm, ← hl]; exact List.length_pos_iff.mpr h
  simp only [revealRemote]
  rw [h', if_pos hp, if_neg (by simp), List.append_nil, List.append_assoc]
  rfl

/-- **C80 is false for other shapes of the same size**: neither names nor types nor the number of rows of the sender's share are sent. A
receiver with four rows of one byte accepts a share of two rows of two bytes with another name. -/
theorem C80_shape_false : ∃ t0 t1 out : Table, t0.WF 4 ∧ t1.WF 2 ∧ t0.getColumnInfo ≠ t1.getColumnInfo ∧
    revealLocal t0 (revealRemote t1) = .ok (out, []) ∧ reveal t0 t1 false = .error .throw := by
  refine ⟨⟨[], [⟨⟨[97], .int, 8⟩, ⟨8, 1, [[1], [2], [3], [4]]⟩⟩]⟩, ⟨[], [⟨⟨[98], .int, 16⟩, ⟨16, 2, [[5, 6], [7, 8]]⟩⟩]⟩, _, ?_, ?_, by decide, rfl, rfl⟩
  · refine ⟨?_, by decide, by decide, Or.inl rfl⟩
    intro c hc; rw [List.mem_singleton] at hc; subst hc
    exact ⟨rfl, rfl, by decide, by decide⟩
  · refine ⟨?_, by decide, by decide, Or.inl rfl⟩
    intro c hc; rw [List.mem_singleton] at hc; subst hc
    exact ⟨rfl, rfl, by decide, by decide⟩

end Table
end SecJoin
