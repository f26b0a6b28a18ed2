"""Checks that every large literal of the source (constants of fields, curves, maps and tables) occurs in the model.

Literals are compared by value: a literal of the source must occur in lean/Verif as a number, or as a 64-bit limb of one.
Usage: python3 tools/literals.py"""
import re,glob,os
lean=set()
for f in glob.glob('/verif/lean/Verif/**/*.lean',recursive=True):
    t=open(f).read()
    for m in re.findall(r'0x[0-9a-fA-F_]+',t): 
        try: lean.add(int(m.replace('_',''),16))
        except: pass
    for m in re.findall(r'\b\d{5,}\b',t): lean.add(int(m))

limbs=set()
for v in lean:
    w=v
    while w:
        limbs.add(w&(2**64-1)); w>>=64
miss={}
for f in sorted(glob.glob('/repo/**/*.rs',recursive=True)):
    if '/tests' in f or 'bench' in f or '/target/' in f: continue
    t=open(f).read()
    # cut test modules
    k=t.find('#[cfg(test)]\nmod')
    if k>=0: t=t[:k]
    for i,l in enumerate(t.split('\n'),1):
        c=l.split('//')[0]
        for m in re.findall(r'0x[0-9a-fA-F_]+',c):
            v=int(m.replace('_','').rstrip('u'),16) if len(m)>2 else 0
            if v<0x10000: continue
            if v in lean or v in limbs: continue
            miss.setdefault(f,[]).append((i,m))
        for m in re.findall(r'(?<![\w."])\d{6,}(?!\w)',c):
            v=int(m)
            if v in lean or v in limbs: continue
            miss.setdefault(f,[]).append((i,m))
        for m in re.findall(r'"([0-9a-fA-F]{16,})"',c):
            v=int(m,16)
            if v in lean: continue
            miss.setdefault(f,[]).append((i,m))
for f in miss:
    print(f,len(miss[f]))
    for x in miss[f][:12]: print('   ',x)
print(sum(len(v) for v in miss.values()), 'literals missing')
