import Verif.Model.Word
/-!
Random words, and the yarns of new branches: `ron/uuid.hpp:122-127`, `db/main.cc:734,160-163,191-197`.
-/
namespace Ron.Random

/-- A number that `rand()` gives: 0 to `RAND_MAX`, which is 2^31 - 1 (glibc). -/
abbrev Draw := BitVec 31

/-- `Word::random`, `ron/uuid.hpp:122-127`, if `rand()` gives `a`, then `b`. -/
def random (a b : Draw) : Word := ((a.setWidth 64 <<< 30) ^^^ b.setWidth 64) &&& Word.MAX_VALUE

/-- The generator of the C library: the numbers that `rand()` gives after `srand` of this seed. It is a function of the
seed, nothing else is said about it. -/
abbrev Generator := BitVec 32 → Nat → Draw

/-- `std::srand(std::time(nullptr))`, `db/main.cc:734`: the argument is an `unsigned int`. -/
def seed (seconds : Nat) : BitVec 32 := BitVec.ofNat 32 seconds

/-- The first `Word::random` of a process that was begun at this time: the yarn of the branch that `CommandCreate`
(`db/main.cc:162`) or `CommandFork` (`db/main.cc:195`) makes. `World.random` of `Model/Cli` is this word. -/
def yarn (gen : Generator) (seconds : Nat) : Word := random (gen (seed seconds) 0) (gen (seed seconds) 1)

end Ron.Random
