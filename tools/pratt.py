import random, math, sys
def mr(n):
    if n<2: return False
    for p in (2,3,5,7,11,13,17,19,23,29,31,37,41):
        if n%p==0: return n==p
    d=n-1;s=0
    while d%2==0: d//=2;s+=1
    for a in (2,3,5,7,11,13,17,19,23,29,31,37,41):
        x=pow(a,d,n)
        if x in(1,n-1): continue
        for _ in range(s-1):
            x=x*x%n
            if x==n-1: break
        else: return False
    return True
def rho(n, lim=2000000):
    if n%2==0: return 2
    while True:
        c=random.randrange(1,n);y=random.randrange(n);m=128;g=r=q=1;it=0
        while g==1:
            x=y
            for _ in range(r): y=(y*y+c)%n
            k=0
            while k<r and g==1:
                ys=y
                for _ in range(min(m,r-k)):
                    y=(y*y+c)%n; q=q*abs(x-y)%n
                g=math.gcd(q,n);k+=m
            r*=2
        if g==n:
            g=1
            while g==1:
                ys=(ys*ys+c)%n; g=math.gcd(abs(x-ys),n)
        if g!=n: return g
known=[31757755568855353,75445702479781427272750846543864801,198211423230930754013084525763697,276602624281642239937218680557139826668747,74058212732561358302231226437062788676166966415465897661863160754340907]
def factor(n):
    fs=[]
    for k in known:
        while n%k==0 and n!=k: fs+=factor(k) if not mr(k) else [k]; n//=k
    for p in range(2,100000):
        while n%p==0: fs.append(p); n//=p
    st=[n] if n>1 else []
    while st:
        m=st.pop()
        if mr(m): fs.append(m); continue
        d=rho(m); st+=[d,m//d]
    return sorted(fs)
def cert(n, out):
    if n in out or n<2**20: return
    fs=sorted(set(factor(n-1)))
    for f in fs: cert(f,out)
    a=2
    while not(pow(a,n-1,n)==1 and all(pow(a,(n-1)//f,n)!=1 for f in fs)): a+=1
    out[n]=(a,factor(n-1))
if __name__=="__main__":
    out={}
    for n in (2**252+27742317777372353535851937790883648493, 2**255-19):
        cert(n,out)
    for n,(a,fs) in out.items(): print(n,a,fs)
