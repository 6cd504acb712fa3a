import Verif.Model.WriteCache
import Verif.Props.Streams
/-!
# Property C82: the stream with a write cache
-/

namespace Securefs.Props

/-! ## C82 -/

theorem wcache_step_fresh {σ : Type} (S : Stream σ) (cap : Nat) (st : σ) (op : Spec.Op) :
    (WCache.stream S cap).step (WCache.fresh cap st) op =
      (S.step st op).map fun p => (WCache.fresh cap p.1, p.2) := by
  cases op with
  | read off len =>
    cases h : S.read st off len <;> simp [Stream.step, WCache.stream, WCache.read, WCache.fresh, h, bind, Except.bind, Except.map]
  | write off d =>
    cases h : S.write st off d <;> simp [Stream.step, WCache.stream, WCache.write, WCache.fresh, h, bind, Except.bind, Except.map]
  | resize n =>
    cases h : S.resize st n <;>
      simp [Stream.step, WCache.stream, WCache.resize, WCache.flushCache, WCache.fresh, h, bind, Except.bind, Except.map]
  | size => simp [Stream.step, WCache.stream, WCache.size, WCache.fresh, Except.map]
  | reopen =>
    cases h : S.reopen st <;>
      simp [Stream.step, WCache.stream, WCache.flushCache, WCache.fresh, h, bind, Except.bind, Except.map]

/-- **C82.**  A stream with a write cache over any delegate answers every history of calls as the delegate alone
    does, fails exactly where it fails and with the same exception, and at each moment the delegate is in the
    state in which it would be without the cache: nothing is ever held back, so nothing can be lost. -/
theorem C82_transparent {σ : Type} (S : Stream σ) (cap : Nat) (st : σ) (ops : List Spec.Op) :
    ((WCache.stream S cap).run (WCache.fresh cap st) ops).map (fun p => (p.1.inner, p.2)) = S.run st ops := by
  suffices h : (WCache.stream S cap).run (WCache.fresh cap st) ops =
      (S.run st ops).map fun p => (WCache.fresh cap p.1, p.2) by
    rw [h]
    cases S.run st ops <;> rfl
  induction ops generalizing st with
  | nil => rfl
  | cons op ops ih =>
    simp only [Stream.run, wcache_step_fresh]
    cases S.step st op with
    | error e => rfl
    | ok p =>
      simp only [Except.map, bind, Except.bind]
      rw [ih]
      cases S.run p.1 ops <;> rfl

/-- C82 on an encrypted file: the history of C01's example gives what it gives there. -/
example : ∃ p, (Toy.lite true 5).openFile ⟨[], 0⟩ = .ok p ∧
    ((WCache.stream (Toy.lite true 5).stream 64).run (WCache.fresh 64 p)
      [.write 40 [1, 2, 3], .write 41 [9], .resize 42, .resize 44, .read 38 80, .size]).map (·.2)
      = .ok [.done, .done, .done, .done, .bytes [0, 0, 1, 9, 0, 0], .size 44] := by
  obtain ⟨p, p', h1, h2⟩ := C01_lite_file_is_byte_array (Toy.lite true 5) (Toy.lite_wf true 5) 0
    [.write 40 [1, 2, 3], .write 41 [9], .resize 42, .resize 44, .read 38 80, .size] (by decide)
  refine ⟨p, h1, ?_⟩
  have h3 := C82_transparent (Toy.lite true 5).stream 64 p
    [.write 40 [1, 2, 3], .write 41 [9], .resize 42, .resize 44, .read 38 80, .size]
  rw [h2] at h3
  revert h3
  cases (WCache.stream (Toy.lite true 5).stream 64).run (WCache.fresh 64 p)
    [.write 40 [1, 2, 3], .write 41 [9], .resize 42, .resize 44, .read 38 80, .size] with
  | error e => intro h3; cases h3
  | ok q =>
    intro h3
    simp only [Except.map, Except.ok.injEq, Prod.mk.injEq] at h3 ⊢
    rw [h3.2]
    decide

/-- A plain file as a stream (`StreamBase` of `/repo/sources/streams.h:17-63` over a list of bytes). -/
def plainFileStream : Stream Bytes where
  read f off len := .ok (ufRead f off len)
  write f off d := .ok (ufWrite f off d)
  resize f n := .ok (ufResize f n)
  size f := f.length
  reopen f := .ok f

/-- **C82, the code for a filled cache is wrong.**  The reason why C82 holds is that no function ever puts
    anything into the cache.  Were four bytes cached, a write just behind them would be lost: it goes to the
    buffer, the number of cached bytes stays, and flushing leaves it out; and a read that begins before the cached
    bytes and ends behind them would return bytes which are in no file. -/
theorem C82_filled_violated :
    ∃ w : WCache Bytes, w.cachedLength = 4 ∧ w.buffer.length = 8 ∧ w.inner = [1, 2] ∧ w.cachedStart = 2 ∧
      (∃ w' w'', w.write plainFileStream 6 [9] = .ok w' ∧ w'.flushCache plainFileStream = .ok w'' ∧
        w''.inner = [1, 2, 5, 5, 5, 5] ∧ Spec.write [1, 2, 5, 5, 5, 5] 6 [9] = [1, 2, 5, 5, 5, 5, 9]) ∧
      w.read plainFileStream 0 8 = .ok [1, 2, 5, 5, 5, 5, 7, 7] ∧ w.size plainFileStream = 6 := by
  refine ⟨⟨[1, 2], [5, 5, 5, 5, 7, 7, 7, 7], 2, 4⟩, rfl, rfl, rfl, rfl,
    ⟨⟨[1, 2], [5, 5, 5, 5, 9, 7, 7, 7], 2, 4⟩, ⟨[1, 2, 5, 5, 5, 5], [5, 5, 5, 5, 9, 7, 7, 7], 0, 0⟩, ?_, ?_, rfl, ?_⟩, ?_, ?_⟩
  all_goals rfl

end Securefs.Props
