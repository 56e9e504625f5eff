#!/usr/bin/env python3
"""Prints, for every citation in a model file, the cited source lines (first and last), so that
they can be checked by eye. usage: cites.py lean/Verif/X/Model.lean [default-header]"""
import re,sys,os,subprocess
R='/repo'
idx={}
for d,_,fs in os.walk(R):
    for f in fs: idx.setdefault(f,[]).append(os.path.join(d,f))
src=open(sys.argv[1]).read(); cur=sys.argv[2] if len(sys.argv)>2 else None
for m in re.finditer(r'/-(?:-|!)?(.*?)-/\s*((?:@\[[^\]]*\]\s*)?(?:noncomputable |private )*(?:def|structure|inductive|abbrev|instance|theorem)\s+\S+)?',src,re.S):
    txt=m[1]; name=(m[2] or '').split()[-1:] or ['-']
    for c in re.finditer(r'([A-Za-z_0-9/]+\.(?:h|cpp))?(?::|\(|, |\s|^)\s*(\d+)(?:-(\d+))?(?=[),;:.\s])',txt):
        if c[1]: cur=c[1]
        if not cur: continue
        if not c[1] and not re.search(r'[(:,]\s*$',txt[:c.start(2)]): continue
        ps=[p for p in sorted(idx.get(os.path.basename(cur),[]),key=lambda p:'/include/ode_num_int/' not in p) if p.endswith('/'+cur.lstrip('/')) and len(open(p,errors='replace').read())>400] or sorted(idx.get(os.path.basename(cur),[]),key=lambda p:'/include/ode_num_int/' not in p)
        if not ps: print(name[0],cur,'??'); continue
        ls=open(ps[0],errors='replace').read().split('\n')
        a=int(c[2]); b=int(c[3] or c[2])
        if b>len(ls): print(name[0],cur,a,b,'BEYOND END'); continue
        print(f"{name[0]:28} {os.path.basename(cur)}:{a}-{b} | {ls[a-1].strip()[:60]} ... {ls[b-1].strip()[:40]}")
