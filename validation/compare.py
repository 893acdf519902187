import sys,pickle
def parse(p):
    L=open(p,'rb').read().split(b'\n'); i=0; R=[]
    while i<len(L) and L[i].strip():
        n=int(L[i+1]); R.append((L[i],L[i+2:i+2+n])); i+=2+n
    return R
real=parse('/repo/resources/glyphs/normalized-glyphs-latin.txt')
got=parse(sys.argv[1])
fonts={v.split(b' ')[1] for _,vs in got for v in vs}
if len(sys.argv)>2: fonts-= {sorted(fonts)[-1]} if sys.argv[2]=='-' else set()
A={(h,v) for h,vs in real for v in vs if v.split(b' ')[1] in fonts}
B={(h,v) for h,vs in got for v in vs if v.split(b' ')[1] in fonts}
print(len(fonts),'fonts',len(A),len(B),'only real',len(A-B),'only model',len(B-A))
for x in list(sorted(A-B))[:4]: print('real',x)
for x in list(sorted(B-A))[:4]: print('model',x)
