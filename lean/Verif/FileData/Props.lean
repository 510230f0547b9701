import Verif.FileData.Lemmas
/-!
C01: a file behaves like one array of bytes.
-/
namespace Verif.FileData

/-- **C01.** For every block size and every sequence of reads, writes and truncations on a new file,
everything the caller sees (data read, bytes written, sizes) is what the same requests give on one
plain byte array, and the final size is the length of that array. -/
theorem C01_file_is_byte_array (bs : Nat) (hbs : 0 < bs) (ops : List Op) :
    (run (newFile bs) ops).2 = (Spec.run [] ops).2 ∧
    (run (newFile bs) ops).1.size = (Spec.run [] ops).1.length := by
  obtain ⟨_, b, c⟩ := run_ok ops (newFile bs) (inv_new bs hbs)
  have h0 : (newFile bs).content = [] := rfl
  rw [h0] at b c
  refine ⟨c, ?_⟩
  rw [← b, content_length]

/-- The block size is not observable. -/
theorem C01_block_size_unobservable (bs bs' : Nat) (h : 0 < bs) (h' : 0 < bs') (ops : List Op) :
    (run (newFile bs) ops).2 = (run (newFile bs') ops).2 := by
  rw [(C01_file_is_byte_array bs h ops).1, (C01_file_is_byte_array bs' h' ops).1]

/-- No stored block ever exceeds the block size, and none holds anything at or beyond the end of the
file (so extending the file later exposes zero bytes only). -/
theorem C01_blocks_bounded (bs : Nat) (hbs : 0 < bs) (ops : List Op) (b : Nat) (e : CacheEntry)
    (he : (run (newFile bs) ops).1.blocks b = some e) :
    e.fh.content.length ≤ (run (newFile bs) ops).1.bs ∧ e.size = e.fh.content.length ∧
    (e.fh.content = [] ∨
      b * (run (newFile bs) ops).1.bs + e.fh.content.length ≤ (run (newFile bs) ops).1.size) := by
  have h := (run_ok ops (newFile bs) (inv_new bs hbs)).1.2 b
  unfold FileSt.blk FileSt.get at h
  rw [he] at h
  exact ⟨h.2.2.1, h.2.1, h.2.2.2⟩

-- A case with several blocks, a hole, an overwrite across a block border, shrinking and growing.
example : (0 < 4) ∧ (run (newFile 4)
    [.write 6 [1, 2, 3, 4, 5], .write 2 [9, 9, 9], .truncate 7, .truncate 12, .read 0 100]).2
    = [.written 5, .written 3, .size 7, .size 12, .data [0, 0, 9, 9, 9, 0, 1, 0, 0, 0, 0, 0]] := by
  rw [(C01_file_is_byte_array 4 (by decide) _).1]; decide

/-- Finding: a write of zero bytes beyond the end of the file extends it (POSIX says it has no effect).
The Linux kernel never forwards such a request. -/
theorem C01_zero_length_write_extends :
    (run (newFile 4) [.write 10 []]).1.size = 10 := by decide +kernel

end Verif.FileData
