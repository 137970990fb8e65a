import re,glob
bad=0;n=0
for f in sorted(glob.glob('/verif/lean/Verif/Model/*.lean')):
    t=open(f).read()
    for m in re.finditer(r'(src/[\w/]+\.rs):(\d+)(?:-(\d+))?\s*\(`([^`]+)`',t):
        n+=1
        file,a,b,name=m.group(1),int(m.group(2)),int(m.group(3) or m.group(2)),m.group(4)
        L=open('/repo/'+file).read().split('\n')
        key=re.split(r'::|\s|<',name)
        key=[k for k in re.findall(r'\w+',name.split('::')[-1])]
        txt='\n'.join(L[a-1:b])
        if not any(k in txt for k in key[:1]): print('MISS',f[-20:],m.group(0)); bad+=1
        elif name.replace('_','').isalnum() and name[0].islower():
            if not re.search(r'fn '+name+r'\b',txt): print('NOFN',f[-20:],m.group(0)); bad+=1
print(n,bad)
