# Left inverses of e |-> e^2 + e used in Model/GFConcrete.lean
def mul(a,b,w,p):
    r=0
    while b:
        if b&1: r^=a
        a<<=1
        if a>>w: a^=(1<<w)|p
        b>>=1
    return r
for w,p in((4,0x3),(8,0x1d),(16,0x100b),(32,0x400007)):
    rows=[]
    for i in range(1,w):
        e=1<<i; rows.append([mul(e,e,w,p)^e,e])
    # gaussian elimination to reduced form
    piv={}
    for v,t in rows:
        for b in sorted(piv,reverse=True):
            if v>>b&1: v^=piv[b][0]; t^=piv[b][1]
        assert v
        b=v.bit_length()-1
        for c in piv:
            if piv[c][0]>>b&1: piv[c]=(piv[c][0]^v,piv[c][1]^t)
        piv[b]=(v,t)
    # free column: bit without pivot; M maps e_b -> t for pivot bits, free bit ->0 requires consistent
    free=[b for b in range(w) if b not in piv]
    T=[piv[b][1] if b in piv else 0 for b in range(w)]
    for i in range(1,w):
        v=mul(1<<i,1<<i,w,p)^(1<<i); r=0
        for b in range(w):
            if v>>b&1: r^=T[b]
        assert r==1<<i,(w,i)
    print(w,[hex(x) for x in T])
