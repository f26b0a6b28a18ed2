#!/usr/bin/env python3
"""Evaluates the Lean model on the known-answer tests of /repo.

The model is computable. This script reads the test vectors out of the Rust test
modules (expand_message and hash_to_curve), writes a Lean file per suite that
evaluates the model on each input with a concrete SHA-256 or SHA-512, and compares
the results with the vectors. It is evidence that the model transcribes the code
faithfully; it proves nothing and is not part of the build.

Usage: tools/vectors.py [suite ...]   (suites: xmd r1 k1 bn1 bn2 bls1 bls2)
"""
import os,re,subprocess,sys,tempfile
HERE=os.path.dirname(os.path.abspath(__file__))
LEAN=os.path.join(HERE,'..','lean')
REPO='/repo'
TMP=tempfile.mkdtemp()
# constants computed
def primes(n):
    r=[];k=2
    while len(r)<n:
        if all(k%q for q in r): r.append(k)
        k+=1
    return r
def iroot(n,k):
    lo,hi=0,1<<((n.bit_length()//k)+1)
    while lo<hi:
        m=(lo+hi+1)//2
        if m**k<=n: lo=m
        else: hi=m-1
    return lo
P=primes(80)
k256=[iroot(p<<(3*32),3)%(1<<32) for p in P[:64]]
h256=[iroot(p<<(2*32),2)%(1<<32) for p in P[:8]]
k512=[iroot(p<<(3*64),3)%(1<<64) for p in P]
h512=[iroot(p<<(2*64),2)%(1<<64) for p in P[:8]]
sha=f'''
def rotr (w n x : Nat) : Nat := (x >>> n) ||| ((x <<< (w - n)) % 2 ^ w)
structure ShaP where
  w : Nat
  k : Array Nat
  h : Array Nat
  s : Array Nat
def shaBlock (P : ShaP) (st : Array Nat) (blk : Array Nat) : Array Nat := Id.run do
  let w := P.w
  let M := 2 ^ w
  let mut ws := blk
  for t in [16:P.k.size] do
    let a := ws[t-15]!
    let b := ws[t-2]!
    let s0 := rotr w P.s[0]! a ^^^ rotr w P.s[1]! a ^^^ (a >>> P.s[2]!)
    let s1 := rotr w P.s[3]! b ^^^ rotr w P.s[4]! b ^^^ (b >>> P.s[5]!)
    ws := ws.push ((ws[t-16]! + s0 + ws[t-7]! + s1) % M)
  let mut v := st
  for t in [0:P.k.size] do
    let a := v[0]!
    let e := v[4]!
    let S1 := rotr w P.s[6]! e ^^^ rotr w P.s[7]! e ^^^ rotr w P.s[8]! e
    let ch := (e &&& v[5]!) ^^^ ((M - 1 - e) &&& v[6]!)
    let t1 := (v[7]! + S1 + ch + P.k[t]! + ws[t]!) % M
    let S0 := rotr w P.s[9]! a ^^^ rotr w P.s[10]! a ^^^ rotr w P.s[11]! a
    let mj := (a &&& v[1]!) ^^^ (a &&& v[2]!) ^^^ (v[1]! &&& v[2]!)
    let t2 := (S0 + mj) % M
    v := #[(t1 + t2) % M, v[0]!, v[1]!, v[2]!, (v[3]! + t1) % M, v[4]!, v[5]!, v[6]!]
  return (Array.range 8).map fun i => (st[i]! + v[i]!) % M
def beN (n x : Nat) : List Nat := (List.range n).map fun i => (x >>> (8 * (n - 1 - i))) % 256
def sha (P : ShaP) (m : List Nat) : List Nat := Id.run do
  let wb := P.w / 8
  let bs := 16 * wb
  let l := m.length
  let pad := (bs - (l + 1 + 2 * wb) % bs) % bs
  let full := (m ++ [128] ++ List.replicate pad 0 ++ beN (2 * wb) (8 * l)).toArray
  let mut st := P.h
  for b in [0:full.size / bs] do
    let blk := (Array.range 16).map fun i => (List.range wb).foldl (fun acc j => acc * 256 + full[b * bs + i * wb + j]!) 0
    st := shaBlock P st blk
  return st.toList.flatMap (beN wb)
def P256 : ShaP := ⟨32, #{k256}, #{h256}, #[7,18,3,17,19,10,6,11,25,2,13,22]⟩
def P512 : ShaP := ⟨64, #{k512}, #{h512}, #[1,8,7,19,61,6,14,18,41,28,34,39]⟩
def D256 : Halo2.Hash.Digest := ⟨sha P256, 32, 64⟩
def D512 : Halo2.Hash.Digest := ⟨sha P512, 64, 128⟩
def asc (s : String) : List Nat := s.toList.map Char.toNat
def hexOf (l : List Nat) : String := String.join (l.map fun b => String.ofList [Nat.digitChar (b / 16), Nat.digitChar (b % 16)])
'''
def tests(f,start,end,n):
    t=open(f'{REPO}/{f}').read()
    i=t.index(start); j=t.index(end,i)
    seg=t[i:j]
    r=[]
    parts=re.split(r'::new\(|Test::new\(',seg)[1:]
    for p in parts:
        strs=re.findall(r'b?"([^"]*)"',p)
        if len(strs)>=n+1: r.append((strs[0],[int(x,16) for x in strs[1:n+1]]))
    return r
cases=[
 ('r1','src/secp256r1/curve.rs','fn test_hash_to_curve()',2,'P256_XMD:SHA-256_SSWU_RO_','Secp256r1.c','Fp.fromUniform','48','r1Map','id','r1P'),
 ('k1','src/secp256k1/curve.rs','fn test_hash_to_curve()',2,'secp256k1_XMD:SHA-256_SSWU_RO_','Secp256k1.c','Fp.fromUniform','48','k1Map','id','k1P'),
 ('bn1','src/bn256/curve.rs','fn test_hash_to_curve_g1()',2,'BN254G1_XMD:SHA-256_SVDW_RO_','Bn256.g1','Fp.fromUniform','48','(svdwSuite Bn256.g1 (fpOps bnQ 3) 1)','id','bnQ'),
 ('bn2','src/bn256/curve.rs','fn test_hash_to_curve_g2()',4,'BN254G2_XMD:SHA-256_SVDW_RO_','Bn256.g2','Tower2.fromUniform','(48*2)','(svdwSuite Bn256.g2 Bn256.ops2 1)','Bn256.g2ClearCofactor','bnQ'),
 ('bls1','src/bls12381/g1.rs','fn test_hash_to_curve()',2,'BLS12381G1_XMD:SHA-256_SSWU_RO_','Bls12381.g1','Fp.fromUniform','64','g1Map','Bls12381.g1ClearCofactor','blsQ'),
 ('bls2','src/bls12381/g2.rs','fn test_hash_to_curve()',4,'BLS12381G2_XMD:SHA-256_SSWU_RO_','Bls12381.g2','Tower2.fromUniform','(64*2)','g2Map','Bls12381.g2ClearCofactor','blsQ'),
]
head='''import Verif.Props.HashCurve
import Verif.Props.Cofactor
open Halo2 Halo2.Prime Halo2.Ext Halo2.Curve Halo2.Hash Halo2.Field Halo2.Props
'''
which=sys.argv[1:]
for c in cases:
    if which and c[0] not in which: continue
    name,f,st,n,dom,C,fu,L,mp,clr,p=c
    T=tests(f,st,'QUUX',n)
    out=head+sha
    cs='[val a.x.limbs, val a.y.limbs]' if n==2 else '[val a.x.c0.limbs, val a.x.c1.limbs, val a.y.c0.limbs, val a.y.c1.limbs]'
    out+=f'#eval IO.println s!"mod {{{p}}} {{numLimbs {p}}}"\n'
    for m,_ in T:
        out+=f'#eval do\n  let r := ((hashToCurve {C} D256 false {fu} {L} {mp} (asc "QUUX-V01-CS02-with-") (asc "{dom}") (asc "{m}")).map {clr}).map Proj.toAffine\n  match r with\n  | none => IO.println "none"\n  | some a => IO.println s!"{{{cs}}}"\n'
    fn=f'{TMP}/{name}.lean'
    open(fn,'w').write(out)
    r=subprocess.run(['lake','env','lean',fn],cwd=LEAN,capture_output=True,text=True)
    lines=[l for l in r.stdout.split('\n') if l.strip()]
    if not lines or not lines[0].startswith('mod'): print(name,'ERR',r.stdout[:1500]); continue
    P,nl=map(int,lines[0].split()[1:])
    R=pow(2,64*nl,P)
    for (m,e),l in zip(T,lines[1:]):
        try: v=[x*pow(R,-1,P)%P for x in eval(l)]
        except Exception as ex: print(name,'??',l[:600]); continue
        print(name,repr(m[:10]),'OK' if v==e else ('FAIL',[hex(x) for x in v],[hex(x) for x in e]))
    print(name,len(T),len(lines)-1)

def xmd():
    t=open(f'{REPO}/src/hash_to_curve.rs').read()
    t=t[t.index('fn test_expand_message'):]
    vs=re.findall(r'Test::<(Sha256|Sha512)>::new\(\s*b"([^"]*)",\s*"([0-9a-f]+)"',t)
    out='import Verif.Hash.Expand\nopen Halo2.Hash\n'+sha
    for d,m,e in vs:
        D,dom=('D256','SHA256-128') if d=='Sha256' else ('D512','SHA512-256')
        out+=f'#eval IO.println (((expandMessage {D} true (asc "QUUX-V01-CS02-with-expander-") (asc "{dom}") (asc "{m}") {len(e)//2}).map hexOf).getD "none")\n'
    fn=f'{TMP}/xmd.lean'
    open(fn,'w').write(out)
    r=subprocess.run(['lake','env','lean',fn],cwd=LEAN,capture_output=True,text=True)
    got=[l for l in r.stdout.split('\n') if l.strip()]
    for (d,m,e),l in zip(vs,got): print('xmd',d,repr(m[:10]),len(e)//2,'OK' if e==l else ('FAIL',l[:300]))
    print('xmd',len(vs),len(got))
if not which or 'xmd' in which: xmd()
