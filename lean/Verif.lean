import Verif.Asm.Contract
import Verif.Asm.Correct
import Verif.Asm.Equiv
import Verif.Asm.Exec
import Verif.Asm.Machine
import Verif.Asm.Mul
import Verif.Asm.Programs
import Verif.Curve.Cofactor
import Verif.Curve.Coordinates
import Verif.Curve.Group
import Verif.Curve.Hom
import Verif.Curve.Inst
import Verif.Curve.Layout
import Verif.Curve.Model
import Verif.Curve.NoRoot
import Verif.Curve.Order
import Verif.Curve.OrderInst
import Verif.Curve.Program
import Verif.Curve.Random
import Verif.Curve.RandomBytes
import Verif.Curve.RandomUniform
import Verif.Curve.Scalar
import Verif.Curve.Serde
import Verif.Curve.SerdeInst
import Verif.Curve.SerdeLemmas
import Verif.Curve.SerdeSign
import Verif.Curve.Stream
import Verif.Curve.Torsion
import Verif.Curve.Unchecked
import Verif.Curve.WireProgram
import Verif.Ext.Adjoin
import Verif.Ext.Bls12381
import Verif.Ext.Bn256
import Verif.Ext.Cyclo
import Verif.Ext.Model
import Verif.Ext.Pluto
import Verif.Ext.Program
import Verif.Ext.Ring
import Verif.Ext.Select
import Verif.Ext.ShRing
import Verif.Ext.ShTower
import Verif.Ext.Shadow
import Verif.Ext.Sqrt2
import Verif.Ext.Sqrt2Inst
import Verif.Ext.Sum
import Verif.Ext.Tower
import Verif.Fft.Checked
import Verif.Fft.Lemmas
import Verif.Fft.Model
import Verif.Fft.Threads
import Verif.Field.Bits
import Verif.Field.Bytes
import Verif.Field.Consts
import Verif.Field.Debug
import Verif.Field.Fp
import Verif.Field.FpBytes
import Verif.Field.FpField
import Verif.Field.Lemmas
import Verif.Field.Model
import Verif.Field.Program
import Verif.Field.SerdeData
import Verif.Field.Spec
import Verif.Field.Sqrt
import Verif.Forms.Model
import Verif.Forms.Repr
import Verif.Glv.Lemmas
import Verif.Glv.Model
import Verif.Hash.Expand
import Verif.Hash.ExpandLemmas
import Verif.Hash.Fibre
import Verif.Hash.Iso
import Verif.Hash.Map
import Verif.Hash.MapInst
import Verif.Hash.MapLemmas
import Verif.Hash.MapOps
import Verif.Hash.SqrtRatio
import Verif.Inverse.CInt
import Verif.Inverse.Checked
import Verif.Inverse.Convert
import Verif.Inverse.Divstep
import Verif.Inverse.FieldInv
import Verif.Inverse.Invert
import Verif.Inverse.Jump
import Verif.Inverse.Model
import Verif.Inverse.Rounds
import Verif.Jacobi.Approx
import Verif.Jacobi.Checked
import Verif.Jacobi.Field
import Verif.Jacobi.Inner
import Verif.Jacobi.LInt
import Verif.Jacobi.Main
import Verif.Jacobi.Model
import Verif.Jacobi.Rounds
import Verif.Jacobi.Symbol
import Verif.Limb.Lemmas
import Verif.Limb.Model
import Verif.Msm.Batch
import Verif.Msm.Best
import Verif.Msm.Booth
import Verif.Msm.Checked
import Verif.Msm.CheckedSerial
import Verif.Msm.Counter
import Verif.Msm.CounterWrong
import Verif.Msm.Model
import Verif.Msm.Serial
import Verif.Pairing.Bilin
import Verif.Pairing.BilinBls
import Verif.Pairing.BilinBn
import Verif.Pairing.BilinPluto
import Verif.Pairing.Divisor
import Verif.Pairing.Extension
import Verif.Pairing.Final
import Verif.Pairing.Gamma
import Verif.Pairing.Inst
import Verif.Pairing.Miller
import Verif.Pairing.Model
import Verif.Pairing.NondegBls
import Verif.Pairing.NondegBn
import Verif.Pairing.NondegPluto
import Verif.Pairing.Outside
import Verif.Pairing.OutsideBls
import Verif.Pairing.OutsidePluto
import Verif.Pairing.Program
import Verif.Pairing.Random
import Verif.Pairing.ShMiller
import Verif.Pairing.Sparse
import Verif.Pairing.Steps
import Verif.Pairing.Total
import Verif.Pairing.TotalInst
import Verif.Pairing.Twist
import Verif.Pairing.WireProgram
import Verif.Prime.Cofactors
import Verif.Prime.Generators
import Verif.Prime.Moduli
import Verif.Prime.Pocklington
import Verif.Props.Asm
import Verif.Props.AsmContract
import Verif.Props.BatchOpen
import Verif.Props.Bilinear
import Verif.Props.BlsSig
import Verif.Props.CInt
import Verif.Props.Checked
import Verif.Props.Cofactor
import Verif.Props.Consts
import Verif.Props.Curve
import Verif.Props.Debug
import Verif.Props.Domain
import Verif.Props.Ecdsa
import Verif.Props.Ext
import Verif.Props.Ext2
import Verif.Props.ExtSum
import Verif.Props.Fft
import Verif.Props.FftPoly
import Verif.Props.Fibre
import Verif.Props.FieldArith
import Verif.Props.FieldBytes
import Verif.Props.FieldMisc
import Verif.Props.FieldProgram
import Verif.Props.Fold
import Verif.Props.Forms
import Verif.Props.Generators
import Verif.Props.Glv
import Verif.Props.Groth16
import Verif.Props.Hash
import Verif.Props.HashCurve
import Verif.Props.Inverse
import Verif.Props.Ipa
import Verif.Props.JacobiRounds
import Verif.Props.Kzg
import Verif.Props.LInt
import Verif.Props.Legendre
import Verif.Props.Ln
import Verif.Props.Lookup
import Verif.Props.Msm
import Verif.Props.MsmWrong
import Verif.Props.Oprf
import Verif.Props.Order
import Verif.Props.Pairing
import Verif.Props.PairingCheck
import Verif.Props.PairingOnto
import Verif.Props.PairingOutside
import Verif.Props.PairingProgram
import Verif.Props.PairingTotal
import Verif.Props.PairingWide
import Verif.Props.PairingWire
import Verif.Props.ParPairing
import Verif.Props.ParProgram
import Verif.Props.Params
import Verif.Props.Permutation
import Verif.Props.Program
import Verif.Props.Random
import Verif.Props.RandomBytes
import Verif.Props.RandomUniform
import Verif.Props.ReprSize
import Verif.Props.Rounds
import Verif.Props.Rows
import Verif.Props.Schnorr
import Verif.Props.Select
import Verif.Props.Serde
import Verif.Props.SerdeData
import Verif.Props.Shares
import Verif.Props.Sponge
import Verif.Props.SqrtRatio
import Verif.Props.Stream
import Verif.Props.Subgroup
import Verif.Props.TowerConsts
import Verif.Props.TowerProgram
import Verif.Props.Trace
import Verif.Props.Unchecked
import Verif.Props.Uniform
import Verif.Props.Vanish
import Verif.Props.Wire
import Verif.Props.WireProgram
import Verif.Trace.Curve
import Verif.Trace.Invert
import Verif.Trace.Limb
import Verif.Trace.Scalar
