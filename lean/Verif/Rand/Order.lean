import Verif.Rand.Lemmas

/-!
# The order of the step

The powers are computed modulo the characteristic polynomial by the kernel.
-/

namespace Verif.Rand

set_option maxRecDepth 100000 in
theorem pow_order : pow order = 1 := by decide +kernel

set_option maxRecDepth 100000 in
theorem inv_3 : mul (pow (order / 3) ^^^ 1) 0x28ad2cf3e09d85f0dc40f461d2c2c7d8 = 1 := by decide +kernel

set_option maxRecDepth 100000 in
theorem inv_5 : mul (pow (order / 5) ^^^ 1) 0xbe5308ec69514dc2ca8939e8bb7cc7f3 = 1 := by decide +kernel

set_option maxRecDepth 100000 in
theorem inv_17 : mul (pow (order / 17) ^^^ 1) 0xb033aadb8e620d5380760c3edaa7db8 = 1 := by decide +kernel

set_option maxRecDepth 100000 in
theorem inv_257 : mul (pow (order / 257) ^^^ 1) 0x30e5aaf1d16d836bb08347f6b98df9d6 = 1 := by decide +kernel

set_option maxRecDepth 100000 in
theorem inv_641 : mul (pow (order / 641) ^^^ 1) 0x6ec2b2abc5012855a81493c7e42b2476 = 1 := by decide +kernel

set_option maxRecDepth 100000 in
theorem inv_65537 : mul (pow (order / 65537) ^^^ 1) 0x3c13da96bdf060b8b178dd43e7c56a9e = 1 := by decide +kernel

set_option maxRecDepth 100000 in
theorem inv_274177 : mul (pow (order / 274177) ^^^ 1) 0x37430ca27c542004fe3ea4c3ea9f5ebc = 1 := by decide +kernel

set_option maxRecDepth 100000 in
theorem inv_6700417 : mul (pow (order / 6700417) ^^^ 1) 0xfbf5d1e791cb791fc6077daa37669ed5 = 1 := by decide +kernel

set_option maxRecDepth 100000 in
theorem inv_67280421310721 : mul (pow (order / 67280421310721) ^^^ 1) 0x55db575fb05489582681f5f2a0a72912 = 1 := by decide +kernel

theorem step_order (s : Rng) : step^[order] s = s := by
  have h := (pow_spec (e := order) (by decide)).2 s
  have h0 := (pow_spec (e := 0) (by decide)).2 s
  have e0 : pow 0 = 1 := by decide +kernel
  rw [pow_order] at h
  rw [e0] at h0
  rw [← h, h0]
  rfl

end Verif.Rand
